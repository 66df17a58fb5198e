import Verif.Lemmas.Layout
import Verif.Lemmas.IeeeRing
import Verif.Lemmas.PlaneRing
import Verif.Model.Exact
/-!
C74: the blocks of memory of rings and lines. `series_new` computes the size of one block for the points and the index, and the places of the levels in it, in
separate functions; `process_ystripes` counts the entries of the stripes in one pass and writes them in another. The parts fit and do not overlap, for
all sizes of the C types; `tg_ring_memsize` is what was allocated.

Two things are wrong in the code. `nmap`, the number of entries of all stripes, is an `int`, and a ring of `2 ^ 26` points can have `2 ^ 31` of
them (`C74_nmap_overflow`); the theorem on stripes is about the numbers without overflow and is partial for this reason. And `tg_poly_memsize` counts a
`struct tg_ring` for each hole in addition to the ring itself, instead of a pointer (`C74_poly_memsize_wrong`).
-/
set_option linter.unusedSectionVars false
namespace Tg

open S Spec

variable {α β : Type*} [LinearOrder α] [LinearOrder β] [Zero α]

/-- `aligned_size`: the least multiple of 8 that is not smaller. -/
theorem C74_align (n : Nat) : n ≤ alignedSize n ∧ 8 ∣ alignedSize n ∧ ∀ m, n ≤ m → 8 ∣ m → alignedSize n ≤ m := by
  obtain ⟨h1, -, h3⟩ := alignedSize_spec n
  exact ⟨h1, Nat.dvd_of_mod_eq_zero h3, fun m h hm => alignedSize_least h (Nat.mod_eq_zero_of_dvd hm)⟩

/-- The block of a ring or line: the structure, its points with the extra one, the index, its table of levels and the rectangles of the levels are inside the
block and do not overlap. The levels have the sizes of the levels that are written (`ix.levels`). The first `sizeof(struct tg_ring)` bytes, which
are set to zero, are inside as well. -/
theorem C74_ring_block {f : Ix α β} (hf : f.Lawful) {A : Arith α} {pts : List (Pt α)} {closed : Bool} {ix dflt ixspread : Nat} (hs : 2 ≤ ixspread)
    {ring : Ring α β} (h : seriesNew f A pts closed ix dflt ixspread = some ring) (b : Abi) :
    let size := calcSeriesSize b ring.npoints
    ring.points.length ≤ ring.npoints + 1 ∧ 8 ∣ size ∧ (b.ring ≤ b.ringPoints + 5 * b.point → b.ring ≤ size) ∧
    Fit size [(0, b.ringPoints), (b.ringPoints, (ring.npoints + 1) * b.point)] ∧
    ∀ i, ring.index = some i →
      (fillIndexStruct b ixspread ring.nsegs).map Prod.fst = i.levels.map List.length ∧
      Fit (size + calcIndexSize b ixspread ring.nsegs)
        ([(0, b.ringPoints), (b.ringPoints, (ring.npoints + 1) * b.point), (size, b.index), (size + b.index, i.levels.length * b.level)] ++
          (fillIndexStruct b ixspread ring.nsegs).map fun x => (size + x.2, x.1 * b.ixrect)) := by
  intro size
  obtain ⟨hk, -⟩ := seriesNew_some hf hs h
  obtain ⟨a1, a2, a3⟩ := alignedSize_spec (b.ringPoints + b.point * (if ring.npoints + 1 < 5 then 5 else ring.npoints + 1))
  have hsize : b.ringPoints + (ring.npoints + 1) * b.point ≤ size := by
    refine le_trans ?_ a1
    rw [Nat.mul_comm b.point]
    exact Nat.add_le_add_left (Nat.mul_le_mul_right _ (by split_ifs <;> omega)) _
  have hsize5 : b.ringPoints + 5 * b.point ≤ size := by
    refine le_trans ?_ a1
    rw [Nat.mul_comm b.point]
    exact Nat.add_le_add_left (Nat.mul_le_mul_right _ (by split_ifs <;> omega)) _
  refine ⟨?_, Nat.dvd_of_mod_eq_zero a3, fun e => e.trans hsize5, ⟨?_, ?_⟩, ?_⟩
  · rw [hk.points_eq, hk.npoints_eq, List.length_append, List.length_take]
    omega
  · intro p hp
    simp only [List.mem_cons, List.not_mem_nil, or_false] at hp
    rcases hp with rfl | rfl
    · dsimp only; omega
    · exact hsize
  · simp
  · intro i hi
    have hL := seriesNew_levels hs h hi
    have hlev := (hk.index_shape i hi).levels
    rw [(hk.index_spread i hi).1, ← hk.nsegs_eq] at hlev
    set L := numLevels ixspread ring.nsegs - 1 with hLd
    obtain ⟨f1, f2, f3⟩ := fillIndexLoop_fit b ixspread ring.nsegs L L 0 (b.index + L * b.level)
    have hix := (alignedSize_spec (indexSizeLoop b ixspread ring.nsegs L L 0 (b.index + L * b.level))).1
    have hcalc : calcIndexSize b ixspread ring.nsegs = alignedSize (indexSizeLoop b ixspread ring.nsegs L L 0 (b.index + L * b.level)) := rfl
    have hfill : fillIndexStruct b ixspread ring.nsegs = fillIndexLoop b ixspread ring.nsegs L L 0 (b.index + L * b.level) := rfl
    rw [hcalc, hfill, hL]
    refine ⟨?_, ⟨?_, ?_⟩⟩
    · rw [fillIndexLoop_sizes, levels_sizes hlev, hL]
      simp only [Nat.zero_add]
    · intro p hp
      simp only [List.mem_append, List.mem_cons, List.not_mem_nil, or_false, List.mem_map] at hp
      rcases hp with (rfl | rfl | rfl | rfl) | ⟨x, hx, rfl⟩
      · dsimp only; omega
      · dsimp only; omega
      · dsimp only; omega
      · dsimp only; omega
      · have := (f2 x hx).2
        dsimp only; omega
    · rw [List.pairwise_append]
      refine ⟨?_, ?_, ?_⟩
      · simp only [List.pairwise_cons, List.mem_cons, List.not_mem_nil, or_false, forall_eq_or_imp, forall_eq, List.Pairwise.nil, and_true, IsEmpty.forall_iff,
          implies_true]
        refine ⟨⟨?_, ?_, ?_⟩, ⟨?_, ?_⟩, ?_⟩ <;> omega
      · have := f1
        rw [List.pairwise_map] at this ⊢
        refine this.imp ?_
        intro x y hxy
        dsimp only at hxy ⊢
        omega
      · intro p hp q hq
        obtain ⟨x, hx, rfl⟩ := List.mem_map.1 hq
        have := (f2 x hx).1
        simp only [List.mem_cons, List.not_mem_nil, or_false] at hp
        rcases hp with rfl | rfl | rfl | rfl <;> dsimp only <;> omega

/-- The index starts at a multiple of 8 in the block and the rectangles at multiples of `d`, the alignment of a coordinate (4, or 8 with `TG_IXFLOAT64`). -/
theorem C74_index_aligned (b : Abi) {d : Nat} (hd : d ∣ 8) (h1 : d ∣ b.index) (h2 : d ∣ b.level) (h3 : d ∣ b.ixrect) (npoints ixspread nsegs : Nat) :
    8 ∣ calcSeriesSize b npoints ∧ ∀ x ∈ fillIndexStruct b ixspread nsegs, d ∣ calcSeriesSize b npoints + x.2 := by
  have h := Nat.dvd_of_mod_eq_zero (alignedSize_spec (b.ringPoints + b.point * (if npoints + 1 < 5 then 5 else npoints + 1))).2.2
  refine ⟨h, fun x hx => Dvd.dvd.add (hd.trans h) ?_⟩
  exact fillIndexLoop_dvd b _ _ _ h3 _ _ _ (Dvd.dvd.add h1 (Dvd.dvd.mul_left h2 _)) x hx

/-- The block of the stripes: the first pass counts, for each stripe, the entries that the second pass writes; with these counts the stripes are inside
the block and do not overlap. Partial: `nmap` is a natural number here. In the code it is an `int`, so this is about rings with
`nmap < 2 ^ 31`; see `C74_nmap_overflow`. Its bound is `nstripes * nsegs`. -/
theorem C74_stripes_block_partial {f : Ix α β} (hf : f.Lawful) {A : Arith α} {pts : List (Pt α)} {closed : Bool} {ix dflt ixspread : Nat} (hs : 2 ≤ ixspread)
    {ring : Ring α β} (h : seriesNew f A pts closed ix dflt ixspread = some ring) {st : List (List Nat)} (hst : ring.ystripes = some st) (b : Abi) :
    ∃ ycounts nmap, countStripes A ring.rect (stripesOf A pts) (segments pts closed) (List.replicate (stripesOf A pts) 0) 0 = some (ycounts, nmap) ∧
      ycounts = st.map List.length ∧ nmap ≤ stripesOf A pts * ring.nsegs ∧
      Fit (stripesSize b st.length nmap)
        ([(0, b.ystripes), (b.ystripes, st.length * b.ystripe)] ++
          ((stripePlaces b ycounts (b.ystripes + st.length * b.ystripe)).zip (st.map List.length)).map fun x => (x.1, x.2 * b.int)) := by
  obtain ⟨hk, -, -, h4⟩ := seriesNew_some hf hs h
  have hp := h4 st hst
  obtain ⟨hlen, hget⟩ := processStripes_some hp
  refine ⟨_, _, by rw [countStripes_eq, hp]; rfl, rfl, ?_, ?_, ?_⟩
  · rw [← hlen]
    have hle : ∀ x ∈ st.map List.length, x ≤ ring.nsegs := by
      intro x hx
      obtain ⟨l, hl, rfl⟩ := List.mem_map.1 hx
      obtain ⟨j, hj⟩ := List.mem_iff_getElem?.1 hl
      have hjn : j < stripesOf A pts := by
        rw [← hlen]
        exact (List.getElem?_eq_some_iff.1 hj).1
      rw [hget j hjn] at hj
      rw [← Option.some.inj hj, List.length_map, hk.nsegs_eq]
      exact (List.length_filter_le _ _).trans (by rw [List.length_zipIdx])
    have := List.sum_le_card_nsmul _ _ hle
    rwa [List.length_map, smul_eq_mul] at this
  · obtain ⟨-, g⟩ := stripePlaces_fit b (st.map List.length) (b.ystripes + st.length * b.ystripe)
    intro p hpm
    simp only [List.mem_append, List.mem_cons, List.not_mem_nil, or_false, List.mem_map (f := fun x : Nat × Nat => (x.1, x.2 * b.int))] at hpm
    unfold stripesSize
    rcases hpm with (rfl | rfl) | ⟨x, hx, rfl⟩
    · dsimp only; omega
    · dsimp only; omega
    · exact (g x hx).2
  · obtain ⟨g1, g⟩ := stripePlaces_fit b (st.map List.length) (b.ystripes + st.length * b.ystripe)
    rw [List.pairwise_append]
    refine ⟨by simp, g1, ?_⟩
    intro p hpm q hq
    obtain ⟨x, hx, rfl⟩ := List.mem_map.1 hq
    have := (g x hx).1
    simp only [List.mem_cons, List.not_mem_nil, or_false] at hpm
    rcases hpm with rfl | rfl <;> dsimp only <;> omega

omit [Zero α] in
/-- `tg_ring_memsize` and `tg_line_memsize` are the sum of the blocks that the ring keeps. -/
theorem C74_ring_memsize (b : Abi) (h0 : 0 < b.index) (ring : Ring α β) : ringMemsize b (ringBlocks b ring).2 = (ringBlocks b ring).1.sum := by
  have hpos : ∀ s n, calcIndexSize b s n ≠ 0 := by
    intro s n
    have h1 := (alignedSize_spec (indexSizeLoop b s n (numLevels s n - 1) (numLevels s n - 1) 0 (b.index + (numLevels s n - 1) * b.level))).1
    have h2 := (fillIndexLoop_fit b s n (numLevels s n - 1) (numLevels s n - 1) 0 (b.index + (numLevels s n - 1) * b.level)).2.2
    have h3 : calcIndexSize b s n = alignedSize (indexSizeLoop b s n (numLevels s n - 1) (numLevels s n - 1) 0 (b.index + (numLevels s n - 1) * b.level)) := rfl
    omega
  unfold ringMemsize ringBlocks ringAllocSize
  rcases ring.index with _ | ix <;> rcases ring.ystripes with _ | st <;> simp [hpos]

/-- `tg_poly_memsize` of a polygon with holes: the blocks of the polygon and of its rings, and for each hole the size of a `struct tg_ring` where the
array has a pointer. -/
theorem C74_poly_memsize (b : Abi) (ext : RingMem) {holes : List RingMem} (h : holes ≠ []) :
    polyMemsize b ext holes + holes.length * b.ptr =
      (polyBlocks b holes.length).sum + ringMemsize b ext + (holes.map (ringMemsize b)).sum + holes.length * b.ring := by
  have hl : 0 < holes.length := List.length_pos_of_ne_nil h
  rw [polyMemsize, holesMemsize_eq, polyBlocks, if_pos hl, List.sum_cons, List.sum_cons, List.sum_nil, Nat.mul_comm b.ptr]
  omega

/-- With 64-bit pointers `tg_poly_memsize` reports 72 bytes more than there are for each hole. -/
theorem C74_poly_memsize_wrong (ext : RingMem) {holes : List RingMem} (h : holes ≠ []) :
    polyMemsize Abi.lp64 ext holes =
      (polyBlocks Abi.lp64 holes.length).sum + ringMemsize Abi.lp64 ext + (holes.map (ringMemsize Abi.lp64)).sum + 72 * holes.length := by
  have := C74_poly_memsize Abi.lp64 ext h
  have e1 : Abi.lp64.ptr = 8 := rfl
  have e2 : Abi.lp64.ring = 80 := rfl
  rw [e1, e2] at this
  omega

/-! ### The number of rectangles with doubles -/

/-- `calc_num_keys` with doubles is exact for all levels that are used, given that `pow` is exact on integers with results below `2 ^ 44`. -/
theorem C74_num_keys {F : Fp} (hF : F.Ok) {pow : ℚ → ℚ → ℚ} {spread : Nat} (hs : 2 ≤ spread) (hs' : spread ≤ 4096) {count : Nat} (hc : count < 2 ^ 31)
    (hpow : ∀ a k : Nat, a ^ k < 2 ^ 44 → pow a k = (a ^ k : Nat)) {level : Nat} (hl : level ≤ numLevels spread count) :
    F.numKeys pow spread level count = numKeys spread level count := by
  have hP : spread ^ level < 2 ^ 44 := by
    obtain ⟨l1, -, l3⟩ := numLevels_spec (s := spread) (n := count) hs
    refine (Nat.pow_le_pow_right (by omega) hl).trans_lt ?_
    rcases l3 with l3 | l3
    · rw [l3, pow_one]; omega
    · rw [lt_numKeys_iff hs, one_mul] at l3
      rw [show numLevels spread count = numLevels spread count - 1 + 1 by omega, pow_succ]
      calc _ ≤ 2 ^ 31 * 4096 := Nat.mul_le_mul (l3.le.trans hc.le) hs'
        _ < 2 ^ 44 := by norm_num
  have hlev : level < 2 ^ 31 := by
    have h1 : level < 2 ^ level := Nat.lt_two_pow_self
    have h2 : (2 : Nat) ^ level ≤ spread ^ level := Nat.pow_le_pow_left hs _
    have h3 : (2 : Nat) ^ level < 2 ^ 44 := h2.trans_lt hP
    have := (Nat.pow_lt_pow_iff_right (by norm_num : 1 < 2)).1 h3
    omega
  have P0 : 0 < spread ^ level := Nat.pow_pos (by omega)
  unfold Fp.numKeys
  rw [fl_nat hF hc, fl_nat hF (show spread < 2 ^ 31 by omega), fl_nat hF hlev, hpow _ _ hP]
  generalize hPe : spread ^ level = P at *
  have P0' : (0 : ℚ) < P := by exact_mod_cast P0
  have P1' : (1 : ℚ) ≤ P := by exact_mod_cast P0
  have P2' : (P : ℚ) ≤ 2 ^ 44 := by exact_mod_cast hP.le
  have c0' : (0 : ℚ) ≤ count := Nat.cast_nonneg _
  have c1' : (count : ℚ) < 2 ^ 31 := by exact_mod_cast hc
  have q1 : (count : ℚ) / P ≤ 2 ^ 31 := (div_le_self c0' P1').trans c1'.le
  have q0 : (0 : ℚ) ≤ count / P := div_nonneg c0' P0'.le
  have inr : InR ((count : ℚ) / P) := inR_small (by rw [abs_of_nonneg q0]; exact q1.trans (by norm_num))
  unfold Fp.div
  rw [if_neg P0'.ne']
  rw [Int.ceil_eq_iff]
  have kP : count ≤ numKeys spread level count * P := by
    have := (numKeys_le_iff (s := spread) (k := level) (n := count) (m := numKeys spread level count) hs).1 le_rfl
    rwa [hPe] at this
  have kc : numKeys spread level count ≤ count := by
    rw [numKeys_le_iff hs, hPe]
    exact Nat.le_mul_of_pos_right _ P0
  constructor
  · rcases Nat.eq_zero_or_pos count with rfl | cpos
    · have : numKeys spread level 0 = 0 := by omega
      rw [this]
      simp only [Nat.cast_zero, zero_div, F.fl_zero hF]
      norm_num
    · have kpos : 0 < numKeys spread level count := by rw [lt_numKeys_iff hs]; omega
      have hlt := (lt_numKeys_iff (s := spread) (k := level) (n := count) (i := numKeys spread level count - 1) hs).1 (by omega)
      rw [hPe] at hlt
      have hlt' : ((numKeys spread level count : ℚ) - 1) * P + 1 ≤ count := by
        have : (numKeys spread level count - 1) * P + 1 ≤ count := hlt
        have c := (Nat.cast_le (α := ℚ)).2 this
        rw [Nat.cast_add, Nat.cast_mul, Nat.cast_sub kpos] at c
        simpa using c
      have cp : (1 : ℚ) ≤ count := by exact_mod_cast cpos
      have qpos : 0 < (count : ℚ) / P := by positivity
      have qlow : (1 : ℚ) / 2 ^ 44 ≤ count / P := by
        rw [div_le_div_iff₀ (by norm_num) P0']
        nlinarith
      have err := F.fl_err hF (q := (count : ℚ) / P)
        (by
          rw [abs_of_pos qpos]
          refine le_trans ?_ qlow
          rw [one_div, ← zpow_natCast, ← zpow_neg]
          exact zpow_le_zpow_right₀ (by norm_num) (by norm_num))
        (by
          rw [abs_of_pos qpos]
          refine q1.trans ?_
          rw [← zpow_natCast]
          exact zpow_le_zpow_right₀ (by norm_num) (by norm_num))
      rw [abs_of_pos qpos] at err
      have e := (abs_le.1 err).2
      have hfin : ((numKeys spread level count : ℚ) - 1) < count / P - count / P / 2 ^ 53 := by
        rw [div_div, div_sub_div _ _ P0'.ne' (by positivity), lt_div_iff₀ (by positivity)]
        nlinarith
      push_cast
      linarith
  · have hle : (count : ℚ) / P ≤ (numKeys spread level count : ℚ) := by
      rw [div_le_iff₀ P0']
      exact_mod_cast kP
    have hn : numKeys spread level count < 2 ^ 31 := by omega
    have := F.fl_mono hF inr (inR_small (by
      rw [abs_of_nonneg (Nat.cast_nonneg _)]
      have : (numKeys spread level count : ℚ) ≤ 2 ^ 31 := by exact_mod_cast hn.le
      exact this.trans (by norm_num))) hle
    rw [fl_nat hF hn] at this
    push_cast
    exact this

/-! ### The number of entries of the stripes -/

namespace S

theorem addRange_all (hi : Int) (i : Nat) (st : List (List Nat)) (h : hi = st.length - 1) : addRange 0 hi i 0 st = st.map (· ++ [i]) := by
  refine List.ext_getElem? fun j => ?_
  rw [addRange_getElem?, List.getElem?_map]
  rcases hj : st[j]? with _ | l
  · rfl
  · have : j < st.length := (List.getElem?_eq_some_iff.1 hj).1
    simp only [Option.map_some, Nat.zero_add]
    rw [if_pos ⟨by omega, by omega⟩]

theorem addStripes_all {α : Type*} [LinearOrder α] {A : Arith α} {r : Rect α} {n : Nat} : ∀ (l : List (Nat × Seg α)) (st : List (List Nat)), st.length = n →
    (∀ x ∈ l, stripeRange A r n x.2 = some (0, (n : Int) - 1)) →
    ∃ st', addStripes A r n l st = some st' ∧ st'.map List.length = st.map fun x => x.length + l.length
  | [], st, _, _ => ⟨st, rfl, by simp⟩
  | (i, s) :: rest, st, h, hr => by
    rw [addStripes, hr (i, s) (by simp)]
    dsimp only
    rw [addRange_all _ _ _ (by omega)]
    obtain ⟨st', h1, h2⟩ := addStripes_all rest (st.map (· ++ [i])) (by simpa using h) (fun x hx => hr x (by simp [hx]))
    refine ⟨st', h1, ?_⟩
    rw [h2, List.map_map]
    refine List.map_congr_left fun x _ => ?_
    simp only [Function.comp, List.length_append, List.length_cons, List.length_nil]
    omega

/-- A ring that goes up and down between two heights: `(0, 0), (1, 1), (2, 0), (3, 1), …`. -/
def zigzag (m : Nat) : List (Pt ℚ) := (List.range (2 * m)).map fun i : Nat => ⟨(i : ℚ), ((i % 2 : Nat) : ℚ)⟩

theorem zigzag_length (m : Nat) : (zigzag m).length = 2 * m := by simp [zigzag]

theorem zigzag_get {m i : Nat} (h : i < 2 * m) : (zigzag m)[i]? = some ⟨i, (i % 2 : Nat)⟩ := by
  simp [zigzag, h]

theorem zigzag_segments {m : Nat} (hm : 2 ≤ m) : numSegments (zigzag m) true = 2 * m := by
  unfold numSegments
  have hl := zigzag_length m
  have h1 : (zigzag m).getLast? = some ⟨((2 * m - 1 : Nat) : ℚ), ((1 : Nat) : ℚ)⟩ := by
    rw [List.getLast?_eq_getElem?, hl, zigzag_get (by omega), show (2 * m - 1) % 2 = 1 by omega]
  have h2 : (zigzag m).head? = some ⟨((0 : Nat) : ℚ), ((0 : Nat) : ℚ)⟩ := by
    rw [List.head?_eq_getElem?, zigzag_get (by omega)]
  rw [if_pos rfl, if_neg (by omega), h1, h2]
  simp [pteq, feq, hl]

theorem zigzag_seg {m : Nat} (hm : 2 ≤ m) {s : Seg ℚ} (h : s ∈ segments (zigzag m) true) : min s.a.y s.b.y = 0 ∧ max s.a.y s.b.y = 1 := by
  obtain ⟨i, hi⟩ := List.mem_iff_getElem?.1 h
  have hlt := (List.getElem?_eq_some_iff.1 hi).1
  rw [← numSegments_eq, zigzag_segments hm] at hlt
  have hs := segAt_eq (zigzag m) true (i := i) (by rw [← numSegments_eq, zigzag_segments hm]; exact hlt)
  rw [hi, segAt, List.getElem?_append_left (by rw [zigzag_length]; exact hlt), zigzag_get hlt] at hs
  have key : (zigzag m ++ (zigzag m).take 1)[i + 1]? = some ⟨((i + 1) % (2 * m) : Nat), (((i + 1) % (2 * m)) % 2 : Nat)⟩ := by
    by_cases e : i + 1 < 2 * m
    · rw [List.getElem?_append_left (by rw [zigzag_length]; exact e), zigzag_get e, Nat.mod_eq_of_lt e]
    · have e' : i + 1 = 2 * m := by omega
      rw [List.getElem?_append_right (by rw [zigzag_length]; omega), zigzag_length, e', Nat.sub_self, List.getElem?_take_of_lt (by omega),
        zigzag_get (by omega), Nat.mod_self]
  rw [key] at hs
  have hs' := Option.some.inj hs
  rw [← hs']
  have par : ((i + 1) % (2 * m)) % 2 = (i + 1) % 2 := Nat.mod_mul_right_mod _ _ _
  dsimp only
  rw [par]
  rcases Nat.mod_two_eq_zero_or_one i with e | e
  · rw [e, show (i + 1) % 2 = 1 by omega]; norm_num
  · rw [e, show (i + 1) % 2 = 0 by omega]; norm_num

end S

/-- A ring of `2 * m` points whose stripes have at least `64 * m` entries, for every arithmetic that is right at the top and the bottom of the ring. -/
theorem C74_nmap_zigzag {f : Ix ℚ β} (hf : f.Lawful) {A : Arith ℚ} {m : Nat} (hm : 2 ≤ m)
    (h0 : A.stripe 0 1 (stripesOf A (zigzag m)) 0 = some 0) (h1 : A.stripe 0 1 (stripesOf A (zigzag m)) 1 = some (stripesOf A (zigzag m) : Int))
    {ixspread : Nat} (hs : 2 ≤ ixspread) (hn : ixspread ≤ m) (dflt : Nat) :
    ∃ ring st, seriesNew f A (zigzag m) true TG_YSTRIPES dflt ixspread = some ring ∧ ring.ystripes = some st ∧
      (st.map List.length).sum = stripesOf A (zigzag m) * (2 * m) ∧ 64 * m ≤ (st.map List.length).sum := by
  set n := stripesOf A (zigzag m) with hnd
  have n32 : 32 ≤ n := le_max_right _ _
  have hk : indexKinds (zigzag m).length ixspread true TG_YSTRIPES dflt = (true, true) := by
    unfold indexKinds
    rw [if_pos (by rw [zigzag_length]; omega)]
    simp
  obtain ⟨rect, index, e1, e2, -⟩ := seriesBase_ok hf (zigzag m) true hs true (fun _ => by rw [zigzag_length]; omega)
  obtain ⟨c1, c2⟩ := e2 (by rw [zigzag_length]; omega)
  have mem : ∀ i, i < 2 * m → (⟨i, (i % 2 : Nat)⟩ : Pt ℚ) ∈ zigzag m := fun i hi => List.mem_of_getElem? (zigzag_get hi)
  have b0 := c1 _ (mem 0 (by omega))
  have b1 := c1 _ (mem 1 (by omega))
  have bt := c2 ⟨⟨0, 0⟩, ⟨(2 * m : Nat), 1⟩⟩ (by
    intro q hq
    obtain ⟨i, hi⟩ := List.mem_iff_getElem?.1 hq
    have hlt : i < 2 * m := by
      have := (List.getElem?_eq_some_iff.1 hi).1
      rwa [zigzag_length] at this
    rw [zigzag_get hlt] at hi
    rw [← Option.some.inj hi]
    refine ⟨?_, ?_, ?_, ?_⟩
    · exact Nat.cast_nonneg _
    · exact Nat.cast_le.2 hlt.le
    · exact Nat.cast_nonneg _
    · have : i % 2 ≤ 1 := by omega
      show ((i % 2 : Nat) : ℚ) ≤ 1
      exact_mod_cast this)
  have y0 : rect.lo.y = 0 := le_antisymm (by simpa using b0.2.2.1) bt.2.2.1
  have y1 : rect.hi.y = 1 := le_antisymm bt.2.2.2 (by simpa using b1.2.2.2)
  have hr : ∀ s ∈ segments (zigzag m) true, stripeRange A rect n s = some (0, (n : Int) - 1) := by
    intro s hs
    obtain ⟨p1, p2⟩ := zigzag_seg hm hs
    unfold stripeRange
    rw [p1, p2, y0, y1, h0, h1]
    simp
  obtain ⟨st, g1, g2⟩ := addStripes_all (A := A) (r := rect) (n := n) ((segments (zigzag m) true).zipIdx.map fun (s, i) => (i, s)) (List.replicate n []) (by simp) (by
    intro x hx
    obtain ⟨⟨s, i⟩, hy, rfl⟩ := List.mem_map.1 hx
    exact hr s (List.fst_mem_of_mem_zipIdx hy))
  have hsum : (st.map List.length).sum = n * (2 * m) := by
    rw [g2]
    simp only [List.map_replicate, List.length_nil, List.length_map, List.length_zipIdx, List.sum_replicate, smul_eq_mul, Nat.zero_add]
    rw [← numSegments_eq, zigzag_segments hm]
  refine ⟨⟨true, (zigzag m).length, numSegments (zigzag m) true, rect, zigzag m ++ (zigzag m).take 1, index, some st⟩, st, ?_, rfl, hsum, ?_⟩
  · unfold seriesNew
    rw [hk]
    dsimp only
    rw [e1]
    dsimp only
    rw [if_pos rfl, numSegments_eq, allSegs_eq]
    dsimp only
    unfold processStripes
    rw [← hnd, g1]
  · rw [hsum]
    nlinarith

/-- With doubles: of a ring of `2 ^ 26` points or more the stripes can have `2 ^ 31` entries or more, and `nmap` (tg.c:1690, 1703) overflows. -/
theorem C74_nmap_overflow {f : Ix ℚ β} (hf : f.Lawful) {F : Fp} (hF : F.Ok) {m : Nat} (hm : 2 ^ 25 ≤ m) (hns : F.ns (zigzag m) < 2 ^ 31)
    {ixspread : Nat} (hs : 2 ≤ ixspread) (hs' : ixspread ≤ 4096) (dflt : Nat) :
    ∃ ring st, seriesNew f F.arith (zigzag m) true TG_YSTRIPES dflt ixspread = some ring ∧ ring.ystripes = some st ∧
      2 ^ 31 ≤ (st.map List.length).sum := by
  have hn : stripesOf F.arith (zigzag m) < 2 ^ 31 := max_lt hns (by norm_num)
  have fl1 := F.fl_one hF
  have fl0 := F.fl_zero hF
  have s10 : F.sub 1 0 = 1 := by unfold Fp.sub; rw [sub_zero, fl1]
  have s00 : F.sub 0 0 = 0 := by unfold Fp.sub; rw [sub_zero, fl0]
  obtain ⟨ring, st, h1, h2, -, h4⟩ := C74_nmap_zigzag hf (A := F.arith) (m := m) (by omega)
    (by
      show F.stripe _ _ _ _ = _
      unfold Fp.stripe
      dsimp only
      rw [s10, if_neg one_ne_zero, s00]
      unfold Fp.div Fp.mul
      rw [if_neg one_ne_zero, zero_div, fl0, zero_mul, fl0]
      simp [truncInt])
    (by
      show F.stripe _ _ _ _ = _
      unfold Fp.stripe
      dsimp only
      rw [s10, if_neg one_ne_zero]
      unfold Fp.div Fp.mul
      rw [if_neg one_ne_zero, div_one, fl1, one_mul, fl_nat hF hn, fl_nat hF hn]
      have : truncInt ((stripesOf F.arith (zigzag m) : Nat) : ℚ) = (stripesOf F.arith (zigzag m) : Int) := by
        unfold truncInt
        rw [if_pos (Nat.cast_nonneg _), Int.floor_natCast]
      rw [this, if_pos ⟨by omega, by omega⟩])
    hs (by omega) dflt
  exact ⟨ring, st, h1, h2, by omega⟩

/-! ### Examples -/

section Examples

/-- A ring of 8 points with index and stripes. -/
def layoutEx : Option (Ring ℚ ℚ) := seriesNew Ix.exact (exact (1 / 1000) fun _ => 0) (zigzag 4) true TG_YSTRIPES 0 2

/-- It is built; its index has the levels that the block has room for, two rectangles above four, after the header and the table of the levels. -/
example : (layoutEx.map fun r => (r.npoints, r.nsegs, r.index.map fun i => i.levels.map List.length)) = some (8, 8, some [2, 4]) ∧
    fillIndexStruct Abi.lp64 2 8 = [(2, 48), (4, 80)] ∧ calcIndexSize Abi.lp64 2 8 = 144 ∧ calcSeriesSize Abi.lp64 8 = 224 := by decide +kernel

/-- The 8 segments are in all 32 stripes; the blocks have 368 and 1552 bytes, and the reported size is their sum. -/
example : (layoutEx.map fun r => (r.ystripes.map fun st => st.map List.length)) = some (some (List.replicate 32 8)) ∧
    (layoutEx.map fun r => (ringBlocks Abi.lp64 r).1) = some [368, 1552] ∧ (layoutEx.map fun r => ringMemsize Abi.lp64 (ringBlocks Abi.lp64 r).2) = some 1920 := by
  decide +kernel

/-- The hypotheses on the arithmetic of `C74_nmap_zigzag`. -/
example : (exact (1 / 1000 : ℚ) fun _ => 0).stripe 0 1 32 0 = some 0 ∧ (exact (1 / 1000 : ℚ) fun _ => 0).stripe 0 1 32 1 = some 32 := by decide +kernel

/-- Alignment, for the sizes of a 64-bit machine. -/
example : 4 ∣ 8 ∧ 4 ∣ Abi.lp64.index ∧ 4 ∣ Abi.lp64.level ∧ 4 ∣ Abi.lp64.ixrect ∧ Abi.lp64.ring ≤ Abi.lp64.ringPoints + 5 * Abi.lp64.point := by decide

end Examples

end Tg
