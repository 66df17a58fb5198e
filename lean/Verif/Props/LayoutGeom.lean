import Verif.Spec.LayoutGeom
import Verif.Props.Layout
import Verif.Props.Multi
/-!
C89: the memory of geometries. `tg_geom_memsize` reports the bytes of all blocks that a geometry reaches, a shared one as often as it is reached, except that
each hole of a polygon is counted with the size of a ring in place of a pointer (C74) and the bytes behind the end of a text are not
counted. The block for the index of a collection has room for all of it.
-/
namespace Tg

open S Spec

variable {α β γ : Type*} [LinearOrder α] [LinearOrder β]

namespace S

theorem ringObj_allocs (b : GAbi) (h0 : 0 < b.index) (r : Ring α β) : ringObjMemsize b r = (ringBlocks b.toAbi r).1.sum :=
  C74_ring_memsize b.toAbi h0 r

theorem polyObj_allocs (b : GAbi) (h0 : 0 < b.index) : ∀ p : PolyObj α β, p.memsize b + p.nholes * b.ptr = (p.allocs b).sum + p.nholes * b.ring
  | .ring r => by simp [PolyObj.memsize, PolyObj.nholes, PolyObj.allocs, ringObj_allocs b h0]
  | .poly e hs => by
    have hr : ∀ hs : List (Ring α β), ((hs.map fun r => (ringBlocks b.toAbi r).2).map (ringMemsize b.toAbi)).sum =
        (hs.flatMap fun r => (ringBlocks b.toAbi r).1).sum := by
      intro hs
      induction hs with
      | nil => rfl
      | cons r hs ih => rw [List.map_cons, List.map_cons, List.sum_cons, ih, List.flatMap_cons, List.sum_append, C74_ring_memsize b.toAbi h0]
    rw [PolyObj.memsize, PolyObj.nholes, PolyObj.allocs, polyMemsize, holesMemsize_eq, hr, List.sum_append, List.sum_append, C74_ring_memsize b.toAbi h0,
      List.length_map]
    unfold polyBlocks
    split_ifs with h
    · simp only [List.sum_cons, List.sum_nil]
      rw [Nat.mul_comm b.ptr]
      omega
    · have : hs.length = 0 := by omega
      rw [this]
      simp only [List.sum_cons, List.sum_nil, Nat.zero_mul]
      omega

theorem addCoords_sum (b : GAbi) (n size : Nat) : addCoords b n size = size + (coordsBlocks b n).sum := by
  unfold addCoords coordsBlocks
  split_ifs <;> simp

theorem addText_sum {t : Text} (h : t.Fits) (size : Nat) : addText t size + t.unused = size + (textBlocks t).sum := by
  match t, h with
  | none, _ => rfl
  | some (len, n), h =>
    have : len + 1 ≤ n := h
    simp only [addText, Text.unused, textBlocks, List.sum_cons, List.sum_nil]
    omega

mutual
theorem obj_allocs (b : GAbi) (h0 : 0 < b.index) : ∀ g : Obj α β, g.Fits →
    g.memsize b + g.nholes * b.ptr + g.unused = (g.allocs b).sum + g.nholes * b.ring
  | .null, _ => by simp [Obj.memsize, Obj.nholes, Obj.unused, Obj.allocs]
  | .point, _ => by simp [Obj.memsize, Obj.nholes, Obj.unused, Obj.allocs]
  | .series r, _ => by simp [Obj.memsize, Obj.nholes, Obj.unused, Obj.allocs, ringObj_allocs b h0]
  | .poly p, _ => by
    have := polyObj_allocs b h0 p
    simpa only [Obj.memsize, Obj.nholes, Obj.unused, Obj.allocs, Nat.add_zero] using this
  | .gpoint t, h => by
    have := addText_sum (t := t) h b.geom
    simp only [Obj.memsize, Obj.nholes, Obj.unused, Obj.allocs, List.sum_append, List.sum_cons, List.sum_nil]
    omega
  | .gline l n t, h => by
    have := fun s => addText_sum (t := t) h s
    rcases l with _ | r
    all_goals
      simp only [Obj.memsize, Obj.nholes, Obj.unused, Obj.allocs, List.sum_append, List.sum_cons, List.sum_nil, addCoords_sum, Nat.zero_mul, Nat.add_zero, this,
        ringObj_allocs b h0]
  | .gpoly none n t, h => by
    have := fun s => addText_sum (t := t) h s
    simp only [Obj.memsize, Obj.nholes, Obj.unused, Obj.allocs, List.sum_append, List.sum_cons, List.sum_nil, addCoords_sum, Nat.zero_mul, Nat.add_zero, this]
  | .gpoly (some p) n t, h => by
    have h1 := addText_sum (t := t) h (b.geom + p.memsize b + (coordsBlocks b n).sum)
    have h2 := polyObj_allocs b h0 p
    simp only [Obj.memsize, Obj.nholes, Obj.unused, Obj.allocs, List.sum_append, List.sum_cons, List.sum_nil, addCoords_sum]
    omega
  | .gmulti none n t, h => by
    have := fun s => addText_sum (t := t) h s
    simp only [Obj.memsize, Obj.nholes, Obj.unused, Obj.allocs, List.sum_append, List.sum_cons, List.sum_nil, addCoords_sum, Nat.zero_mul, Nat.add_zero, this]
  | .gmulti (some gs) n t, h => by
    have h1 := fun s => addText_sum (t := t) h.2 s
    have h2 := fun s => objs_allocs b h0 gs h.1 s
    simp only [Obj.memsize, Obj.nholes, Obj.unused, Obj.allocs, List.sum_append, List.sum_cons, List.sum_nil, addCoords_sum, multiBlocks]
    have h2 := h2 (b.geom + b.multi + gs.length * b.ptr)
    split_ifs
    · have h1 := h1 (Obj.memsizeLoop b gs (b.geom + b.multi + gs.length * b.ptr) + calcIndexSize b.toAbi multiSpread gs.length + gs.length * b.int + (coordsBlocks b n).sum)
      simp only [List.sum_cons, List.sum_nil]
      omega
    · have h1 := h1 (Obj.memsizeLoop b gs (b.geom + b.multi + gs.length * b.ptr) + (coordsBlocks b n).sum)
      simp only [List.sum_nil]
      omega
theorem objs_allocs (b : GAbi) (h0 : 0 < b.index) : ∀ gs : List (Obj α β), Obj.AllFit gs → ∀ size,
    Obj.memsizeLoop b gs size + Obj.allHoles gs * b.ptr + Obj.allUnused gs = size + (Obj.allAllocs b gs).sum + Obj.allHoles gs * b.ring
  | [], _, size => by simp [Obj.memsizeLoop, Obj.allHoles, Obj.allUnused, Obj.allAllocs]
  | g :: gs, h, size => by
    have h1 := obj_allocs b h0 g h.1
    have h2 := objs_allocs b h0 gs h.2 (size + g.memsize b)
    simp only [Obj.memsizeLoop, Obj.allHoles, Obj.allUnused, Obj.allAllocs, List.sum_append, Nat.add_mul]
    omega
end

theorem chunkUpper_length {s : Nat} : ∀ (ns : List Nat) (below : List (Rect β)) {ls : List (List (Rect β))}, chunkUpper s ns below = some ls →
    ls.length = ns.length + 1
  | [], below, ls, h => by cases h; rfl
  | n :: ns, below, ls, h => by
    rw [chunkUpper] at h
    rcases h1 : chunkLevel s n below with _ | l
    · rw [h1] at h; cases h
    rw [h1] at h
    rcases h2 : chunkUpper s ns l with _ | l2
    · simp only [h2] at h; cases h
    simp only [h2] at h
    cases h
    rw [List.length_append, chunkUpper_length ns l h2]
    rfl

theorem multiNew_levels [Zero α] {f : Ix α β} {H : HArith α} {Q : Qsort} {rectOf : γ → Rect α} {geoms : List γ} {m : Multi α β γ}
    (h : multiNew f H Q rectOf geoms = some m) {ix : Index β} (hi : m.index = some ix) :
    64 ≤ geoms.length ∧ ix.spread = multiSpread ∧ ix.levels.length = numLevels multiSpread geoms.length - 1 := by
  unfold multiNew at h
  dsimp only at h
  split_ifs at h with hc
  swap
  · cases h; cases hi
  unfold multiSpread at hc
  refine ⟨by omega, ?_⟩
  unfold inflateIndex at h
  dsimp only at h
  split at h
  · cases h
  split at h
  · cases h
  split at h
  · cases h
  split at h
  · cases h
  rename_i levels hu
  cases h
  cases hi
  refine ⟨rfl, ?_⟩
  have hl := chunkUpper_length _ _ hu
  have : 2 ≤ numLevels multiSpread geoms.length := by
    obtain ⟨L1, L2, -⟩ := numLevels_spec (s := multiSpread) (n := geoms.length) (by decide)
    by_contra hlt
    have e : numLevels multiSpread geoms.length = 1 := by omega
    rw [e, numKeys_le_iff (by decide), pow_one, one_mul] at L2
    unfold multiSpread at L2
    omega
  dsimp only
  rw [hl, upperSizes, List.length_map, List.length_range]
  omega

end S

/-- C89. What `tg_geom_memsize` reports, for every geometry: the bytes of its blocks, without the unused bytes of texts, and with a `struct tg_ring` in
place of a pointer for each hole. A block that is reached twice counts twice. -/
theorem C89_memsize (b : GAbi) (h0 : 0 < b.index) (g : Obj α β) (h : g.Fits) :
    g.memsize b + g.nholes * b.ptr + g.unused = (g.allocs b).sum + g.nholes * b.ring := obj_allocs b h0 g h

/-- C89. It is exact for geometries without holes and with texts that fill their blocks. -/
theorem C89_exact (b : GAbi) (h0 : 0 < b.index) (g : Obj α β) (h : g.Fits) (hn : g.nholes = 0) (hu : g.unused = 0) : g.memsize b = (g.allocs b).sum := by
  have := C89_memsize b h0 g h
  rw [hn, hu] at this
  omega

/-- C89. With 64-bit pointers it is exact, too small or too large according to the unused bytes and the number of holes. -/
theorem C89_lp64 (g : Obj α β) (h : g.Fits) : g.memsize GAbi.lp64 + g.unused = (g.allocs GAbi.lp64).sum + 72 * g.nholes := by
  have := C89_memsize GAbi.lp64 (by decide) g h
  have e1 : GAbi.lp64.ptr = 8 := rfl
  have e2 : GAbi.lp64.ring = 80 := rfl
  rw [e1, e2] at this
  omega

/-- C89. The block for the index of a collection: the header, the table of the levels and the rectangles of the levels are inside and do not overlap, and
the levels have the sizes of those that `multi_geom_inflate_index` writes. There is an entry of `ixgeoms` for each child. -/
theorem C89_index_block [Zero α] {f : Ix α β} {H : HArith α} {Q : Qsort} (hQ : QsortOk Q) {rectOf : γ → Rect α} {geoms : List γ} {m : Multi α β γ}
    (h : multiNew f H Q rectOf geoms = some m) {ix : Index β} (hi : m.index = some ix) (b : Abi) :
    (fillIndexStruct b ix.spread geoms.length).map Prod.fst = ix.levels.map List.length ∧ m.ixgeoms.length = geoms.length ∧
    Fit (calcIndexSize b ix.spread geoms.length)
      ([(0, b.index), (b.index, ix.levels.length * b.level)] ++ (fillIndexStruct b ix.spread geoms.length).map fun x => (x.2, x.1 * b.ixrect)) := by
  obtain ⟨hn, hs, hL⟩ := multiNew_levels h hi
  obtain ⟨ok, -⟩ := multiNew_ok hQ h
  have hlev := ok.levels ix hi
  rw [hs] at hlev ⊢
  set L := numLevels multiSpread geoms.length - 1 with hLd
  obtain ⟨f1, f2, f3⟩ := fillIndexLoop_fit b multiSpread geoms.length L L 0 (b.index + L * b.level)
  have hix := (alignedSize_spec (indexSizeLoop b multiSpread geoms.length L L 0 (b.index + L * b.level))).1
  have hcalc : calcIndexSize b multiSpread geoms.length = alignedSize (indexSizeLoop b multiSpread geoms.length L L 0 (b.index + L * b.level)) := rfl
  have hfill : fillIndexStruct b multiSpread geoms.length = fillIndexLoop b multiSpread geoms.length L L 0 (b.index + L * b.level) := rfl
  rw [hcalc, hfill, hL]
  refine ⟨?_, ?_, ?_, ?_⟩
  · rw [fillIndexLoop_sizes, levels_sizes hlev, hL]
    simp only [Nat.zero_add]
  · simpa using (ok.perm ix hi).length_eq
  · intro p hp
    simp only [List.mem_append, List.mem_cons, List.not_mem_nil, or_false, List.mem_map] at hp
    rcases hp with (rfl | rfl) | ⟨x, hx, rfl⟩
    · dsimp only; omega
    · dsimp only; omega
    · have := (f2 x hx).2
      dsimp only; omega
  · rw [List.pairwise_append]
    refine ⟨by simp, f1, ?_⟩
    intro p hp q hq
    obtain ⟨x, hx, rfl⟩ := List.mem_map.1 hq
    have := (f2 x hx).1
    simp only [List.mem_cons, List.not_mem_nil, or_false] at hp
    rcases hp with rfl | rfl <;> dsimp only <;> omega

/-! ### Examples -/

section Examples

/-- A collection with 64 points, so that it has an index, a feature with extra members in a block of 100 bytes and a polygon with two holes; its extra
coordinates are three. -/
def S.memEx (r : Ring ℚ ℚ) : Obj ℚ ℚ := .gmulti (some (List.replicate 64 .point ++ [.gline (some r) 0 (some (20, 100)), .poly (.poly r [r, r])])) 3 (some (15, 16))

theorem S.memEx_holes (r : Ring ℚ ℚ) : (memEx r).Fits ∧ (memEx r).nholes = 2 ∧ (memEx r).unused = 79 := by
  unfold memEx
  simp [Obj.Fits, Obj.AllFit, Obj.nholes, Obj.allHoles, PolyObj.nholes, Obj.unused, Obj.allUnused, Text.unused, List.replicate, Text.Fits]

/-- The report, in full: the ring is counted four times. -/
theorem S.memEx_report (r : Ring ℚ ℚ) : (memEx r).memsize GAbi.lp64 = 2821 + 4 * ringObjMemsize GAbi.lp64 r := by
  have : calcIndexSize GAbi.lp64.toAbi multiSpread 66 = 80 := by decide +kernel
  unfold memEx
  simp [Obj.memsize, Obj.memsizeLoop, PolyObj.memsize, polyMemsize, holesMemsize, List.replicate, addText, addCoords, multiSpread, ringObjMemsize] at this ⊢
  rw [this]
  simp only [GAbi.lp64, Abi.lp64]
  omega

/-- Two times 72 bytes of it are not there, and 79 bytes are missing. -/
example (r : Ring ℚ ℚ) : ((memEx r).allocs GAbi.lp64).sum = 2756 + 4 * (ringBlocks GAbi.lp64.toAbi r).1.sum := by
  obtain ⟨h1, h2, h3⟩ := memEx_holes r
  have := C89_lp64 _ h1
  rw [memEx_report, h2, h3, ringObj_allocs GAbi.lp64 (by decide)] at this
  omega

/-- The grid of 80 points of C39 has an index of one level with three rectangles; they end with the block. -/
example : QsortOk insertionQsort ∧ (multiNew (Ix.exact : Ix ℚ ℚ) exactH insertionQsort S.Pt.rect grid).map (fun m => (m.index.map fun ix => ix.levels.map List.length)) =
    some (some [3]) ∧ fillIndexStruct Abi.lp64 32 80 = [(3, 32)] ∧ calcIndexSize Abi.lp64 32 80 = 80 := ⟨insertionQsort_ok, by decide +kernel⟩

end Examples

end Tg
