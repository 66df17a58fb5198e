import Verif.Lemmas.Move
import Verif.Props.IeeeGeo
import Verif.Props.Measure
import Verif.Props.Series
import Mathlib.Tactic.IntervalCases
/-!
C76: moving points, segments, rectangles, lines, rings and polygons. The moved object is made of the moved points; in exact arithmetic, and with doubles on
fixed-point coordinates, that changes neither sizes nor the answer to whether two objects intersect. The index can get lost.
-/
namespace Tg

open S

namespace S
variable {K : Type*} [Field K] [LinearOrder K] [IsStrictOrderedRing K] {β : Type*} [LinearOrder β] {C : Maker K β} {add : K → K → K} {e : Env} {d : Pt K}

/-- The index option of the moved series. -/
def movedIx (cl : Bool) (s : Series K) : BitVec 32 :=
  if (kindsOf s.e s.pts.length cl s.ix).2 then 3#32 else if (kindsOf s.e s.pts.length cl s.ix).1 then 2#32 else 1#32

/-- The moved series. -/
def Series.moved (e : Env) (g : Pt K → Pt K) (cl : Bool) (s : Series K) : Series K := ⟨e, movedIx cl s, s.pts.map g⟩

/-- The moved shape. -/
def AShape.moved (e : Env) (g : Pt K → Pt K) : AShape K → AShape K
  | .point p => .point (g p)
  | .line s => .line (s.moved e g false)
  | .poly s hs => .poly (s.moved e g true) (hs.map (Series.moved e g true))

theorem moved_maps (e : Env) (g : Pt K → Pt K) (x : AShape K) : x.Maps g (x.moved e g) := by
  cases x with
  | point p => rfl
  | line s => rfl
  | poly s hs =>
    refine ⟨rfl, ?_⟩
    induction hs with
    | nil => exact .nil
    | cons h hs ih => exact .cons rfl ih

theorem moveIx_eq (hf : C.f.Lawful) {s : Series K} (hs : s.e.Ok) {cl : Bool} {r : Ring K β} (h : newIx C.f C.A s.e s.pts cl s.ix = some r) :
    moveIx r = movedIx cl s := by
  obtain ⟨-, h1, h2, -⟩ := newIx_some hf hs h
  unfold moveIx movedIx
  rw [Bool.eq_iff_iff.2 h1, Bool.eq_iff_iff.2 h2]

theorem seriesMove_eq (hf : C.f.Lawful) {s : Series K} (hs : s.e.Ok) {cl : Bool} {r : Ring K β} (h : newIx C.f C.A s.e s.pts cl s.ix = some r) (g : Pt K → Pt K) :
    r.points.take r.npoints = s.pts ∧ newIx C.f C.A e (s.pts.map g) cl (moveIx r) = newIx C.f C.A e (s.moved e g cl).pts cl (s.moved e g cl).ix := by
  have hk := (newIx_some hf hs h).1
  refine ⟨?_, by rw [moveIx_eq hf hs h]; rfl⟩
  rw [hk.points_eq, hk.npoints_eq]
  simp

theorem ringMove_by (hf : C.f.Lawful) (he : e.Ok) {s : Series K} {r r' : FRing K β} (h : FBy C s r) (hm : ringMove C add e r d = some r') :
    FBy C (s.moved e (ptMove add d) true) r' := by
  obtain ⟨p1, p2⟩ := seriesMove_eq (e := e) hf h.ok h.made (ptMove add d)
  unfold ringMove seriesMove at hm
  rw [p1, p2] at hm
  dsimp only at hm
  split at hm
  · rename_i a b c
    cases hm
    exact ⟨he, a, b, c⟩
  · cases hm

theorem holesMove_by (hf : C.f.Lawful) (he : e.Ok) : ∀ {hs : List (Series K)} {rs rs' : List (FRing K β)}, List.Forall₂ (FBy C) hs rs →
    rs.mapM (fun h => ringMove C add e h d) = some rs' → List.Forall₂ (FBy C) (hs.map (Series.moved e (ptMove add d) true)) rs'
  | _, _, rs', .nil, h => by
    obtain rfl : [] = rs' := by simpa using h
    exact .nil
  | _, _, rs', .cons h1 h2, h => by
    rw [List.mapM_cons] at h
    simp only [Option.bind_eq_bind, Option.bind_eq_some_iff, Option.pure_def, Option.some.injEq] at h
    obtain ⟨a, ha, b, hb, rfl⟩ := h
    exact .cons (ringMove_by hf he h1 ha) (holesMove_by hf he h2 hb)

theorem atomMove_by (hf : C.f.Lawful) (he : e.Ok) {x : AShape K} {a b : Atom K β} (hx : x.By C a) (hm : atomMove C add e d a = some b) :
    (x.moved e (ptMove add d)).By C b := by
  match x, a, hx with
  | .point p, .point q, hx =>
    obtain rfl : q = p := hx
    cases hm
    rfl
  | .line s, .line l, hx =>
    obtain ⟨h1, h2⟩ := hx
    obtain ⟨p1, p2⟩ := seriesMove_eq (e := e) hf h1 h2 (ptMove add d)
    simp only [atomMove, lineMove, seriesMove] at hm
    rw [p1, p2] at hm
    obtain ⟨l', hl, rfl⟩ := Option.map_eq_some_iff.1 hm
    exact ⟨he, hl⟩
  | .poly s hs, .poly (.ring r), hx =>
    obtain ⟨rfl, h2⟩ := hx
    simp only [atomMove, polyMove, Option.map_map, Option.map_eq_some_iff] at hm
    obtain ⟨r', hr, rfl⟩ := hm
    exact ⟨rfl, ringMove_by hf he h2 hr⟩
  | .poly s hs, .poly (.poly r rs), hx =>
    obtain ⟨h1, h2⟩ := hx
    obtain ⟨q, hq, rfl⟩ := Option.map_eq_some_iff.1 hm
    simp only [polyMove] at hq
    cases e1 : ringMove C add e r d with
    | none => rw [e1] at hq; simp at hq
    | some r' =>
      cases e2 : rs.mapM fun h => ringMove C add e h d with
      | none => rw [e1, e2] at hq; simp at hq
      | some rs' =>
        rw [e1, e2] at hq
        have k1 := ringMove_by hf he h1 e1
        have k2 := holesMove_by hf he h2 e2
        obtain rfl := Option.some.inj hq
        split_ifs with h0
        · subst h0
          exact ⟨List.forall₂_nil_right_iff.1 k2, k1⟩
        · exact ⟨k1, k2⟩

/-- The constructors of exact arithmetic. -/
def exactMaker [FloorRing K] (ε : K) (ns : List (Pt K) → Nat) : Maker K K := ⟨Ix.exact, exact ε ns, ringConvex, ringClockwise⟩

theorem fby_iff [FloorRing K] {ε : K} {ns : List (Pt K) → Nat} {s : Series K} {r : FRing K K} : FBy (exactMaker ε ns) s r ↔ FOk ε ns s r :=
  ⟨fun ⟨a, b, c, d⟩ => ⟨a, b, c, d⟩, fun ⟨a, b, c, d⟩ => ⟨a, b, c, d⟩⟩

theorem by_is [FloorRing K] {ε : K} {ns : List (Pt K) → Nat} {x : AShape K} {a : Atom K K} : x.By (exactMaker ε ns) a ↔ x.Is ε ns a := by
  have h : FBy (exactMaker ε ns) = FOk ε ns := by
    funext s r
    exact propext fby_iff
  match x, a with
  | .point p, .point q => exact Iff.rfl
  | .line s, .line l => exact Iff.rfl
  | .poly s hs, .poly (.ring r) => show (_ ∧ FBy (exactMaker ε ns) _ _) ↔ (_ ∧ FOk _ _ _ _); rw [h]
  | .poly s hs, .poly (.poly r rs) => show (FBy (exactMaker ε ns) _ _ ∧ List.Forall₂ (FBy (exactMaker ε ns)) _ _) ↔ (FOk _ _ _ _ ∧ _); rw [h]
  | .point p, .line l => exact Iff.rfl
  | .point p, .poly q => exact Iff.rfl
  | .line s, .point q => exact Iff.rfl
  | .line s, .poly q => exact Iff.rfl
  | .poly s hs, .point q => exact Iff.rfl
  | .poly s hs, .line q => exact Iff.rfl

/-- The ring is closed by its last point or has no index, and if it has stripes, then the points are below its top or no segment is along its top. With this
hypothesis the search and the point test are right (`Fit`). -/
structure Tidy (s : Series K) (ps : List (Pt K)) : Prop where
  env : s.e.Ok
  search : s.pts.getLast? = s.pts.head? ∨ (kindsOf s.e s.pts.length true s.ix).1 = false
  top : (kindsOf s.e s.pts.length true s.ix).2 = true → ∀ p ∈ ps, (∃ v ∈ s.pts, p.y < v.y) ∨ ∀ t ∈ s.segs, ∃ v ∈ s.pts, t.a.y < v.y ∨ t.b.y < v.y

theorem Tidy.fit [FloorRing K] {s : Series K} {ps : List (Pt K)} (h : Tidy s ps) (ns : List (Pt K) → Nat) : Fit ns s ps where
  env := h.env
  good ε hε r hr := by
    obtain ⟨a1, a2, a3, -⟩ := newIx_some Ix.exact_lawful h.env hr
    constructor
    · rcases h.search with hc | hc
      · unfold SearchOk segments
        by_cases h3 : s.pts.length < 3
        · rw [if_neg (by simp), if_pos h3]
          rcases Nat.eq_zero_or_pos s.pts.length with h0 | h0
          · right; left; rw [h0]; simp
          · left; simpa using h0
        · left
          simp only [Bool.not_true, Bool.false_eq_true, if_false, if_neg h3, if_pos hc, edges_length]
          omega
      · right; right
        rw [hc] at a2
        simpa using a2
    · intro p hp hst
      have hk : (kindsOf s.e s.pts.length true s.ix).2 = true := a3.1 (by cases hr' : r.ystripes <;> simp_all)
      have h2 : 2 ≤ s.pts.length := by
        have := indexKinds_size (Or.inr hk)
        have := extractSpread_ge h.env s.ix
        unfold spreadOf at *
        omega
      rcases h.top hk p hp with ⟨v, v1, v2⟩ | ht
      · exact .inl (v2.trans_le (a1.rect_has h2 v v1).2.2.2)
      · right
        intro t hts
        obtain ⟨v, v1, v2⟩ := ht t hts
        have := (a1.rect_has h2 v v1).2.2.2
        rcases v2 with v2 | v2
        · exact .inl (v2.trans_le this)
        · exact .inr (v2.trans_le this)

theorem kinds_moved (e : Env) (s : Series K) :
    ((kindsOf s.e s.pts.length true s.ix).1 = false → (kindsOf e s.pts.length true (movedIx true s)).1 = false) ∧
    ((kindsOf e s.pts.length true (movedIx true s)).2 = true → (kindsOf s.e s.pts.length true s.ix).2 = true) := by
  have h0 : (kindsOf s.e s.pts.length true s.ix).2 = true → (kindsOf s.e s.pts.length true s.ix).1 = true := by
    unfold kindsOf indexKinds
    split_ifs with a b <;> simp
    all_goals intro h; simp_all [TG_YSTRIPES]
  unfold movedIx
  generalize kindsOf s.e s.pts.length true s.ix = k at h0
  have h1 : ∀ n : Nat, kindsOf e n true 1#32 = (false, false) := by
    intro n
    unfold kindsOf indexKinds
    simp [extractSpread, TG_DEFAULT, TG_NONE, TG_NATURAL, TG_YSTRIPES]
  have h2 : ∀ n : Nat, (kindsOf e n true 2#32).2 = false := by
    intro n
    unfold kindsOf indexKinds
    split_ifs <;> simp_all [extractSpread, TG_DEFAULT, TG_NONE, TG_NATURAL, TG_YSTRIPES]
  obtain ⟨k1, k2⟩ := k
  cases k1 <;> cases k2 <;> simp_all

theorem Tidy.moved (he : e.Ok) {s : Series K} {ps : List (Pt K)} (h : Tidy s ps) : Tidy (s.moved e (Pt.shift d) true) (ps.map (Pt.shift d)) where
  env := he
  search := by
    refine h.search.imp (fun hc => ?_) (fun hc => ?_)
    · show (s.pts.map (Pt.shift d)).getLast? = (s.pts.map (Pt.shift d)).head?
      rw [List.getLast?_map, List.head?_map, hc]
    · show (kindsOf e (s.pts.map (Pt.shift d)).length true (movedIx true s)).1 = false
      rw [List.length_map]
      exact (kinds_moved e s).1 hc
  top hk p hp := by
    obtain ⟨q, hq, rfl⟩ := List.mem_map.1 hp
    have hk' : (kindsOf e (s.pts.map (Pt.shift d)).length true (movedIx true s)).2 = true := hk
    rw [List.length_map] at hk'
    rcases h.top ((kinds_moved e s).2 hk') q hq with ⟨v, v1, v2⟩ | ht
    · exact .inl ⟨_, List.mem_map_of_mem v1, by simpa [Pt.shift] using v2⟩
    · right
      intro t hts
      rw [Series.Maps.segs (show s.Maps (Pt.shift d) (s.moved e (Pt.shift d) true) from rfl)] at hts
      obtain ⟨t, ht', rfl⟩ := List.mem_map.1 hts
      obtain ⟨v, v1, v2⟩ := ht t ht'
      exact ⟨_, List.mem_map_of_mem v1, by simpa [Pt.shift, Seg.shift] using v2⟩

end S

variable {K : Type*} [Field K] [LinearOrder K] [IsStrictOrderedRing K] {β : Type*} [LinearOrder β] {C : Maker K β} {add : K → K → K} {e : Env} {d : Pt K}

/-- C76. Whatever the arithmetic and the environment, a moved point, line or polygon is made of the moved points, in the same order, with the same rings: no
point is lost, added or left behind. -/
theorem C76_made (hf : C.f.Lawful) (he : e.Ok) {x : AShape K} {a b : Atom K β} (hx : x.By C a) (hm : atomMove C add e d a = some b) :
    ∃ y : AShape K, x.Maps (fun p => ⟨add p.x d.x, add p.y d.y⟩) y ∧ y.By C b :=
  ⟨x.moved e (ptMove add d), moved_maps e _ x, atomMove_by hf he hx hm⟩

theorem S.rect_ext' {a b : Rect K} (h1 : a.lo.x = b.lo.x) (h2 : a.lo.y = b.lo.y) (h3 : a.hi.x = b.hi.x) (h4 : a.hi.y = b.hi.y) : a = b := by
  obtain ⟨⟨a1, a2⟩, ⟨a3, a4⟩⟩ := a
  obtain ⟨⟨b1, b2⟩, ⟨b3, b4⟩⟩ := b
  simp_all

/-- C76. If addition is monotone on the coordinates, as it is with doubles that do not overflow, then the rectangle of a moved ring or line is its moved rectangle. -/
theorem C76_rect (hf : C.f.Lawful) (he : e.Ok) {s : Series K} (hs : s.e.Ok) (h2 : 2 ≤ s.pts.length)
    (hadd : ∀ p ∈ s.pts, ∀ q ∈ s.pts, (p.x ≤ q.x → add p.x d.x ≤ add q.x d.x) ∧ (p.y ≤ q.y → add p.y d.y ≤ add q.y d.y)) {cl : Bool}
    {r r' : Ring K β} (h : newIx C.f C.A s.e s.pts cl s.ix = some r) (hm : seriesMove C add e r cl d = some r') : r'.rect = rectMove add d r.rect := by
  obtain ⟨p1, p2⟩ := seriesMove_eq (e := e) hf hs h (ptMove add d)
  unfold seriesMove at hm
  rw [p1, p2] at hm
  obtain ⟨a, ⟨q1, m1, l1⟩, ⟨q2, m2, l2⟩, ⟨q3, m3, l3⟩, ⟨q4, m4, l4⟩⟩ := C19_rect_exact hf hs h2 h
  obtain ⟨a', ⟨q1', m1', l1'⟩, ⟨q2', m2', l2'⟩, ⟨q3', m3', l3'⟩, ⟨q4', m4', l4'⟩⟩ := C19_rect_exact hf he (by simpa [Series.moved] using h2) hm
  have hi : ∀ q ∈ s.pts, ptMove add d q ∈ (s.moved e (ptMove add d) cl).pts := fun q hq => List.mem_map_of_mem hq
  obtain ⟨q1', n1, rfl⟩ := List.mem_map.1 m1'
  obtain ⟨q2', n2, rfl⟩ := List.mem_map.1 m2'
  obtain ⟨q3', n3, rfl⟩ := List.mem_map.1 m3'
  obtain ⟨q4', n4, rfl⟩ := List.mem_map.1 m4'
  have b1 := a' _ (hi q1 m1)
  have b2 := a' _ (hi q2 m2)
  have b3 := a' _ (hi q3 m3)
  have b4 := a' _ (hi q4 m4)
  simp only [ptMove] at *
  refine S.rect_ext' ?_ ?_ ?_ ?_ <;> simp only [rectMove, ptMove]
  · rw [← l1]
    exact le_antisymm b1.1 (l1' ▸ (hadd _ m1 _ n1).1 (l1.le.trans (a _ n1).1))
  · rw [← l3]
    exact le_antisymm b3.2.2.1 (l3' ▸ (hadd _ m3 _ n3).2 (l3.le.trans (a _ n3).2.2.1))
  · rw [← l2]
    exact le_antisymm (l2' ▸ (hadd _ n2 _ m2).1 ((a _ n2).2.1.trans l2.ge)) b2.2.1
  · rw [← l4]
    exact le_antisymm (l4' ▸ (hadd _ n4 _ m4).2 ((a _ n4).2.2.2.trans l4.ge)) b4.2.2.2

/-- C76. The moved ring or line has an index if and only if it had one and has twice as many points as the spread of the environment, which is not the spread of its
own index; it has stripes if and only if it had them and is as long. -/
theorem C76_index (hf : C.f.Lawful) (he : e.Ok) {s : Series K} (hs : s.e.Ok) {cl : Bool} {r r' : Ring K β} (h : newIx C.f C.A s.e s.pts cl s.ix = some r)
    (hm : seriesMove C add e r cl d = some r') : (r'.index.isSome = true ↔ r.index.isSome = true ∧ 2 * e.spread ≤ s.pts.length) ∧
    (r'.ystripes.isSome = true ↔ r.ystripes.isSome = true ∧ 2 * e.spread ≤ s.pts.length) := by
  obtain ⟨p1, p2⟩ := seriesMove_eq (e := e) hf hs h (ptMove add d)
  unfold seriesMove at hm
  rw [p1, p2] at hm
  obtain ⟨-, a1, a2, -⟩ := newIx_some hf hs h
  obtain ⟨-, b1, b2, -⟩ := newIx_some hf he hm
  have h0 : (kindsOf s.e s.pts.length cl s.ix).2 = true → (kindsOf s.e s.pts.length cl s.ix).1 = true ∧ cl = true := by
    unfold kindsOf indexKinds
    split_ifs with a b <;> simp
    all_goals intro hc h; simp_all [TG_YSTRIPES]
  have hk : kindsOf e s.pts.length cl (movedIx cl s) = if 2 * e.spread ≤ s.pts.length then (kindsOf s.e s.pts.length cl s.ix) else (false, false) := by
    have hsp : ∀ i : Nat, i < 4 → spreadOf e (BitVec.ofNat 32 i) = e.spread.toNat ∧ (extractSpread e (BitVec.ofNat 32 i)).1.toNat = i := by
      intro i hi
      interval_cases i <;> simp [spreadOf, extractSpread]
    have hcond : (s.pts.length ≥ e.spread.toNat * 2) ↔ 2 * e.spread ≤ s.pts.length := by
      have := he.1
      omega
    unfold movedIx
    generalize kindsOf s.e s.pts.length cl s.ix = k at h0
    obtain ⟨k1, k2⟩ := k
    have e1 := hsp 1 (by norm_num)
    have e2 := hsp 2 (by norm_num)
    have e3 := hsp 3 (by norm_num)
    unfold kindsOf indexKinds
    by_cases hl : 2 * e.spread ≤ s.pts.length
    · cases k1 <;> cases k2 <;> simp_all [TG_DEFAULT, TG_NONE, TG_NATURAL, TG_YSTRIPES]
    · rw [if_neg (fun h => hl (hcond.1 (by
        cases k1 <;> cases k2 <;> simp_all))), if_neg hl]
  have hl : (s.moved e (ptMove add d) cl).pts.length = s.pts.length := by simp [Series.moved]
  rw [hl, show (s.moved e (ptMove add d) cl).ix = movedIx cl s from rfl, hk] at b1 b2
  rw [b1, b2, a1, a2]
  split_ifs with hc <;> simp [hc]

/-- C76. What has no stripes can be moved: whatever the arithmetic, no access is out of bounds. -/
theorem C76_exists (hf : C.f.Lawful) (he : e.Ok) {s : Series K} (hs : s.e.Ok) {cl : Bool} {r : Ring K β} (h : newIx C.f C.A s.e s.pts cl s.ix = some r)
    (hst : r.ystripes = none) : ∃ r', seriesMove C add e r cl d = some r' := by
  obtain ⟨p1, p2⟩ := seriesMove_eq (e := e) hf hs h (ptMove add d)
  unfold seriesMove
  rw [p1]
  have hix : moveIx r = 2#32 ∨ moveIx r = 1#32 := by
    unfold moveIx
    rw [hst]
    cases r.index <;> simp
  have hy : (kindsOf e (s.pts.map (ptMove add d)).length cl (moveIx r)).2 = false := by
    unfold kindsOf indexKinds
    rcases hix with h | h <;> rw [h] <;> split_ifs <;> simp_all [extractSpread, TG_DEFAULT, TG_NONE, TG_NATURAL, TG_YSTRIPES]
  obtain ⟨r', h1, -⟩ := seriesNew_ok hf C.A (s.pts.map (ptMove add d)) cl (extractSpread_ge he (moveIx r)) hy
  exact ⟨r', h1⟩

/-- C76. In exact arithmetic the moved shape has the moved points, and the moved inner points. -/
theorem C76_same {x y : AShape K} (h : x.Maps (fun p => ⟨p.x + d.x, p.y + d.y⟩) y) (w : Pt K) :
    (y.Has w ↔ x.Has ⟨w.x - d.x, w.y - d.y⟩) ∧ (y.Inner w ↔ x.Inner ⟨w.x - d.x, w.y - d.y⟩) := by
  have e : w = Pt.shift d ⟨w.x - d.x, w.y - d.y⟩ := by cases w; simp [Pt.shift]
  constructor
  · conv_lhs => rw [e]
    exact has_shift h _
  · conv_lhs => rw [e]
    exact inner_shift h _

/-- C76. In exact arithmetic a moved segment has the moved points, and so has a moved rectangle. -/
theorem C76_segment (s : Seg K) (r : Rect K) (w : Pt K) : (OnSeg (segMove (· + ·) d s) w ↔ OnSeg s ⟨w.x - d.x, w.y - d.y⟩) ∧
    (Rect.Has (rectMove (· + ·) d r) w ↔ Rect.Has r ⟨w.x - d.x, w.y - d.y⟩) := by
  have e : w = Pt.shift d ⟨w.x - d.x, w.y - d.y⟩ := by cases w; simp [Pt.shift]
  constructor
  · conv_lhs => rw [e]
    exact onSeg_shift
  · simp [Rect.Has, rectMove, ptMove, le_sub_iff_add_le, sub_le_iff_le_add]

/-- C76. In exact arithmetic the moved ring has the same area, direction and convexity. -/
theorem C76_measures (pts : List (Pt K)) : shoelace (pts.map fun p => ⟨p.x + d.x, p.y + d.y⟩) = shoelace pts ∧
    ringClockwise (pts.map fun p => ⟨p.x + d.x, p.y + d.y⟩) = ringClockwise pts ∧ ringConvex (pts.map fun p => ⟨p.x + d.x, p.y + d.y⟩) = ringConvex pts := by
  refine ⟨shoelace_shift pts, ?_, ?_⟩
  · show (orient (pts.map (Pt.shift d))).map _ = _
    rw [orient_shift]; rfl
  · show (orient (pts.map (Pt.shift d))).map _ = _
    rw [orient_shift]; rfl

/-- C76. In exact arithmetic the moved line or ring is as long. -/
theorem C76_perimeter (d : Pt ℝ) (pts : List (Pt ℝ)) (cl : Bool) :
    Spec.perimeter (pts.map fun p => ⟨p.x + d.x, p.y + d.y⟩) cl = Spec.perimeter pts cl := by
  show ((segments (pts.map (Pt.shift d)) cl).map _).sum = _
  rw [segments_shift, List.map_map]
  unfold Spec.perimeter
  congr 1
  apply List.map_congr_left
  intro s _
  simp [Spec.euclid, Seg.shift, Pt.shift]

section
variable [FloorRing K]

theorem S.meet_shift {x y x' y' : AShape K} (hx : x.Maps (Pt.shift d) x') (hy : y.Maps (Pt.shift d) y') :
    (∃ w, x'.Has w ∧ y'.Has w) ↔ ∃ w, x.Has w ∧ y.Has w := by
  constructor
  · rintro ⟨w, h1, h2⟩
    obtain ⟨v, rfl⟩ := shift_surj d w
    exact ⟨v, (has_shift hx v).1 h1, (has_shift hy v).1 h2⟩
  · rintro ⟨w, h1, h2⟩
    exact ⟨_, (has_shift hx w).2 h1, (has_shift hy w).2 h2⟩

theorem S.verts_moved (e : Env) (g : Pt K → Pt K) (x : AShape K) : (x.moved e g).verts = x.verts.map g := by
  cases x <;> rfl

theorem S.rings_moved (e : Env) (g : Pt K → Pt K) (x : AShape K) : (x.moved e g).rings = x.rings.map (Series.moved e g true) := by
  cases x <;> rfl

theorem S.tidy_moved (he : e.Ok) {x y : AShape K} (h : ∀ s ∈ x.rings, Tidy s y.verts) :
    ∀ s ∈ (x.moved e (Pt.shift d)).rings, Tidy s (y.moved e (Pt.shift d)).verts := by
  intro s hs
  rw [rings_moved] at hs
  rw [verts_moved]
  obtain ⟨t, ht, rfl⟩ := List.mem_map.1 hs
  exact (h t ht).moved he

theorem S.atom_rings (x : AShape K) : (Shape.atom x).rings = x.rings := by simp [Shape.rings, Shape.atoms]
theorem S.atom_verts (x : AShape K) : (Shape.atom x).verts = x.verts := by simp [Shape.verts, Shape.atoms]

/-- C76. In exact arithmetic, moving two points, lines or polygons by the same vector does not change whether they intersect. -/
theorem C76_intersects (he : e.Ok) (ns : List (Pt K) → Nat) (x y : AShape K) (okx : x.Ok) (oky : y.Ok) (fx : ∀ s ∈ x.rings, Tidy s y.verts)
    (fy : ∀ s ∈ y.rings, Tidy s x.verts) : ∃ ε₀ > 0, ∀ ε, 0 < ε → ε ≤ ε₀ → ∀ (fuel : Nat) (a b a' b' : Atom K K), x.Is ε ns a → y.Is ε ns b →
      atomMove (exactMaker ε ns) (· + ·) e d a = some a' → atomMove (exactMaker ε ns) (· + ·) e d b = some b' →
      ∃ r, geoIntersects ⟨Ix.exact, exact ε ns, exactR, fuel⟩ (.atom a) (.atom b) = some r ∧
        geoIntersects ⟨Ix.exact, exact ε ns, exactR, fuel⟩ (.atom a') (.atom b') = some r := by
  have fit : ∀ {x y : AShape K}, (∀ s ∈ x.rings, Tidy s y.verts) → ∀ s ∈ (Shape.atom x).rings, Fit ns s (Shape.atom y).verts := by
    intro x y h s hs
    rw [atom_verts]
    rw [atom_rings] at hs
    exact (h s hs).fit ns
  have ok : ∀ {x : AShape K}, x.Ok → ∀ z ∈ (Shape.atom x).atoms, z.Ok := by
    intro x h z hz
    rw [Shape.atoms, List.mem_singleton] at hz
    rwa [hz]
  have mx := moved_maps e (Pt.shift d) x
  have my := moved_maps e (Pt.shift d) y
  obtain ⟨e1, p1, h1⟩ := C53_intersects ns (H := exactH) insertionQsort_ok (.atom x) (.atom y) (ok okx) (ok oky) (fit fx) (fit fy)
  obtain ⟨e2, p2, h2⟩ := C53_intersects ns (H := exactH) insertionQsort_ok (.atom (x.moved e (Pt.shift d))) (.atom (y.moved e (Pt.shift d)))
    (ok (ok_shift mx okx)) (ok (ok_shift my oky)) (fit (tidy_moved he fx)) (fit (tidy_moved he fy))
  refine ⟨min e1 e2, lt_min p1 p2, fun ε hε hle fuel a b a' b' ha hb ha' hb' => ?_⟩
  obtain ⟨r, r1, r2⟩ := h1 ε hε (hle.trans (min_le_left _ _)) fuel (.atom a) (.atom b) ha hb
  have ia : (x.moved e (Pt.shift d)).Is ε ns a' := by_is.1 (atomMove_by (C := exactMaker ε ns) Ix.exact_lawful he (by_is.2 ha) ha')
  have ib : (y.moved e (Pt.shift d)).Is ε ns b' := by_is.1 (atomMove_by (C := exactMaker ε ns) Ix.exact_lawful he (by_is.2 hb) hb')
  obtain ⟨t, t1, t2⟩ := h2 ε hε (hle.trans (min_le_right _ _)) fuel (.atom a') (.atom b') ia ib
  refine ⟨r, r1, ?_⟩
  rw [t1, Option.some.injEq, Bool.eq_iff_iff, t2, r2]
  exact meet_shift mx my

end

/-! ### With doubles -/

section
open Spec.Double
variable {F : Fp} (hF : Rounding F.rnd) {k : ℤ} (h1 : -400 ≤ k) (h2 : k ≤ 400) (hn : ∀ pts, F.ns pts < 2 ^ 31)
include hF

/-- C76. With doubles, and sums that do not overflow, the rectangle of a moved ring or line is its moved rectangle, though each coordinate is rounded. -/
theorem C76_rect_ieee {f : Ix ℚ β} (hf : f.Lawful) (he : e.Ok) {d : Pt ℚ} {s : Series ℚ} (hs : s.e.Ok) (h2 : 2 ≤ s.pts.length)
    (hd : ∀ p ∈ s.pts, |p.x + d.x| ≤ 2 ^ 1020 ∧ |p.y + d.y| ≤ 2 ^ 1020) {cl : Bool} {r r' : Ring ℚ β}
    (h : newIx f F.arith s.e s.pts cl s.ix = some r) (hm : seriesMove (F.maker f) F.add e r cl d = some r') :
    r'.rect = ⟨⟨F.add r.rect.lo.x d.x, F.add r.rect.lo.y d.y⟩, ⟨F.add r.rect.hi.x d.x, F.add r.rect.hi.y d.y⟩⟩ := by
  have key : ∀ p ∈ s.pts, ∀ q ∈ s.pts, (p.x ≤ q.x → F.add p.x d.x ≤ F.add q.x d.x) ∧ (p.y ≤ q.y → F.add p.y d.y ≤ F.add q.y d.y) := by
    intro p hp q hq
    have ⟨p1, p2⟩ := hd p hp
    have ⟨q1, q2⟩ := hd q hq
    constructor <;> intro hl
    · exact F.fl_mono hF (inR_of p1) (inR_of q1) (by gcongr)
    · exact F.fl_mono hF (inR_of p2) (inR_of q2) (by gcongr)
  have := C76_rect (C := F.maker f) (add := F.add) hf he hs h2 key h hm
  rw [this]
  rfl

include h1 h2

theorem S.add_grid {d p : Pt ℚ} (h : GridPt k (Pt.shift d p)) : ptMove F.add d p = Pt.shift d p := by
  obtain ⟨⟨n, n1, n2⟩, ⟨m, m1, m2⟩⟩ := h
  have hx : F.fl (p.x + d.x) = p.x + d.x := by
    have n2 : p.x + d.x = n * 2 ^ k := n2
    rw [n2]
    exact F.fl_int hF (n1.trans (by norm_num)) (by omega) (by omega)
  have hy : F.fl (p.y + d.y) = p.y + d.y := by
    have m2 : p.y + d.y = m * 2 ^ k := m2
    rw [m2]
    exact F.fl_int hF (m1.trans (by norm_num)) (by omega) (by omega)
  show (⟨F.fl (p.x + d.x), F.fl (p.y + d.y)⟩ : Pt ℚ) = ⟨p.x + d.x, p.y + d.y⟩
  rw [hx, hy]

theorem S.moved_grid {d : Pt ℚ} (e : Env) {x : AShape ℚ} (h : ∀ p ∈ x.nodes, GridPt k (Pt.shift d p)) : x.moved e (ptMove F.add d) = x.moved e (Pt.shift d) := by
  have hm : ∀ pts : List (Pt ℚ), (∀ p ∈ pts, GridPt k (Pt.shift d p)) → pts.map (ptMove F.add d) = pts.map (Pt.shift d) := fun pts hp =>
    List.map_congr_left fun p hq => add_grid hF h1 h2 (hp p hq)
  cases x with
  | point p => exact congrArg AShape.point (add_grid hF h1 h2 (h p (by simp [AShape.nodes])))
  | line s => simp only [AShape.moved, Series.moved, hm s.pts h]
  | poly s hs =>
    have hs' : ∀ t ∈ s :: hs, Series.moved e (ptMove F.add d) true t = Series.moved e (Pt.shift d) true t := by
      intro t ht
      simp only [Series.moved]
      rw [hm t.pts fun p hp => h p (by simp only [AShape.nodes, List.mem_flatMap]; exact ⟨t, ht, hp⟩)]
    simp only [AShape.moved]
    rw [hs' s (by simp), List.map_congr_left fun t ht => hs' t (List.mem_cons_of_mem _ ht)]

include hn

/-- C76. With doubles, if the coordinates are fixed-point numbers before and after, then moving two points, lines or polygons by the same vector does not
change whether they intersect. -/
theorem C76_ieee {f : Ix ℚ β} (hf : Ag.Fits (OnGrid k) f) (he : e.Ok) {d : Pt ℚ} (x y : AShape ℚ) (okx : x.Ok) (oky : y.Ok)
    (fx : ∀ s ∈ x.rings, Tidy s y.verts) (fy : ∀ s ∈ y.rings, Tidy s x.verts)
    (gx : ∀ p ∈ x.nodes, GridPt k p ∧ GridPt k ⟨p.x + d.x, p.y + d.y⟩) (gy : ∀ p ∈ y.nodes, GridPt k p ∧ GridPt k ⟨p.x + d.x, p.y + d.y⟩)
    (fuel : Nat) (a b a' b' : Atom ℚ β) (ha : x.By (F.maker f) a) (hb : y.By (F.maker f) b)
    (ha' : atomMove (F.maker f) F.add e d a = some a') (hb' : atomMove (F.maker f) F.add e d b = some b') :
    ∃ r, geoIntersects ⟨f, F.arith, F.rarith, fuel⟩ (.atom a) (.atom b) = some r ∧ geoIntersects ⟨f, F.arith, F.rarith, fuel⟩ (.atom a') (.atom b') = some r := by
  have fit : ∀ {x y : AShape ℚ}, (∀ s ∈ x.rings, Tidy s y.verts) → ∀ s ∈ (Shape.atom x).rings, Fit F.ns s (Shape.atom y).verts := by
    intro x y h s hs
    rw [atom_verts]
    rw [atom_rings] at hs
    exact (h s hs).fit F.ns
  have ok : ∀ {x : AShape ℚ}, x.Ok → ∀ z ∈ (Shape.atom x).atoms, z.Ok := by
    intro x h z hz
    rw [Shape.atoms, List.mem_singleton] at hz
    rwa [hz]
  have nodes : ∀ {x : AShape ℚ} {P : Pt ℚ → Prop}, (∀ p ∈ x.nodes, P p) → ∀ p ∈ (Shape.atom x).nodes, P p := by
    intro x P h p hp
    simp only [Shape.nodes, Shape.atoms, List.flatMap_cons, List.flatMap_nil, List.append_nil] at hp
    exact h p hp
  have nodes_moved : ∀ {x : AShape ℚ} {P : Pt ℚ → Prop}, (∀ p ∈ x.nodes, P (Pt.shift d p)) → ∀ p ∈ (x.moved e (Pt.shift d)).nodes, P p := by
    intro x P h p hp
    have : (x.moved e (Pt.shift d)).nodes = x.nodes.map (Pt.shift d) := by
      cases x <;> simp [AShape.moved, AShape.nodes, Series.moved, List.flatMap_map, List.map_flatMap]
    rw [this] at hp
    obtain ⟨q, hq, rfl⟩ := List.mem_map.1 hp
    exact h q hq
  have mx := moved_maps e (Pt.shift d) x
  have my := moved_maps e (Pt.shift d) y
  have ia := atomMove_by (C := F.maker f) hf.lawful he ha ha'
  have ib := atomMove_by (C := F.maker f) hf.lawful he hb hb'
  rw [moved_grid hF h1 h2 e fun p hp => (gx p hp).2] at ia
  rw [moved_grid hF h1 h2 e fun p hp => (gy p hp).2] at ib
  obtain ⟨r, r1, r2⟩ := C67_intersects hF h1 h2 hn hf (H := exactH) insertionQsort_ok (.atom x) (.atom y) (nodes fun p hp => (gx p hp).1) (nodes fun p hp => (gy p hp).1)
    (ok okx) (ok oky) (fit fx) (fit fy) fuel (.atom a) (.atom b) ha hb
  obtain ⟨t, t1, t2⟩ := C67_intersects hF h1 h2 hn hf (H := exactH) insertionQsort_ok (.atom (x.moved e (Pt.shift d))) (.atom (y.moved e (Pt.shift d)))
    (nodes (nodes_moved fun p hp => (gx p hp).2)) (nodes (nodes_moved fun p hp => (gy p hp).2))
    (ok (ok_shift mx okx)) (ok (ok_shift my oky)) (fit (tidy_moved he fx)) (fit (tidy_moved he fy)) fuel (.atom a') (.atom b') ia ib
  refine ⟨r, r1, ?_⟩
  rw [t1, Option.some.injEq, Bool.eq_iff_iff, t2, r2]
  exact meet_shift mx my

omit hn h1 h2

/-- C76, what the hypothesis on coordinates is for: two different points are moved to the same one, whatever the index and fuel. -/
theorem C76_rounding {f : Ix ℚ β} (e : Env) (fuel : Nat) : ∃ b : Atom ℚ β, atomMove (F.maker f) F.add e ⟨1, 0⟩ (.point ⟨0, 0⟩) = some b ∧
    atomMove (F.maker f) F.add e ⟨1, 0⟩ (.point ⟨1 / 2 ^ 53, 0⟩) = some b ∧
    geoIntersects ⟨f, F.arith, F.rarith, fuel⟩ (.atom (.point ⟨0, 0⟩)) (.atom (.point ⟨1 / 2 ^ 53, 0⟩)) = some false ∧
    geoIntersects ⟨f, F.arith, F.rarith, fuel⟩ (.atom b) (.atom b) = some true := by
  have a1 : F.add 0 1 = 1 := by rw [Fp.add, zero_add]; exact F.fl_one hF
  have a2 : F.add (1 / 2 ^ 53) 1 = 1 := by rw [Fp.add, add_comm]; exact F.fl_tie hF
  have a0 : F.add 0 0 = 0 := by rw [Fp.add, zero_add]; exact F.fl_zero hF
  refine ⟨.point ⟨1, 0⟩, ?_, ?_, ?_, ?_⟩
  · simp only [atomMove, ptMove, a1, a0]
  · simp only [atomMove, ptMove, a2, a0]
  · simp [geoIntersects, geoX, someGeo, atomX, pteq, feq]
  · simp [geoIntersects, geoX, someGeo, atomX, pteq, feq]

end

/-- The move does not keep the spread of the index: a ring that was made with two segments for each entry of the index has no index after it is moved. -/
theorem C76_index_lost : ((newIx Ix.exact arithQ Env.initial (boxQ 0 0 10 10) true 18#32).map fun r =>
    (r.index.isSome, (seriesMove (exactMaker (1 / 2 ^ 30) fun _ => 32) (· + ·) Env.initial r true ⟨1, 1⟩).map fun r' => r'.index.isSome)) = some (true, some false) := by
  decide +kernel

/-! ### The hypotheses are met -/

/-- A square with a hole, with an index of two segments for each entry, and a line. -/
def S.moveShape : AShape ℚ := .poly ⟨Env.initial, 18#32, boxPts 0 0 10 10⟩ [⟨Env.initial, 18#32, boxPts 4 4 6 6⟩]
def S.moveLine : AShape ℚ := .line ⟨Env.initial, 0#32, [⟨5, 5⟩, ⟨6, 5⟩]⟩

example : moveShape.Ok ∧ moveLine.Ok ∧ (∀ s ∈ moveShape.rings, Tidy s moveLine.verts) ∧ (∀ s ∈ moveLine.rings, Tidy s moveShape.verts) ∧
    (∀ p ∈ moveShape.nodes ++ moveLine.nodes, GridPt 0 p ∧ GridPt 0 ⟨p.x + 100, p.y + 200⟩) := by
  have hok : Env.initial.Ok := ⟨by decide, by decide⟩
  refine ⟨polyOk_boxes (by norm_num) (by norm_num) (by norm_num) (by norm_num) (by norm_num) (by norm_num), trivial, ?_, by simp [moveLine, AShape.rings], ?_⟩
  · intro s hs
    simp only [moveShape, AShape.rings, List.mem_cons, List.not_mem_nil, or_false] at hs
    rcases hs with rfl | rfl <;> exact ⟨hok, .inl rfl, fun h => absurd h (by decide)⟩
  · intro p hp
    simp only [moveShape, moveLine, AShape.nodes, boxPts, List.flatMap_cons, List.flatMap_nil, List.append_nil, List.cons_append, List.nil_append, List.mem_cons,
      List.not_mem_nil, or_false] at hp
    have g : ∀ a b : ℤ, |a| ≤ 10 → |b| ≤ 10 → GridPt 0 ⟨(a : ℚ), b⟩ ∧ GridPt 0 ⟨(a : ℚ) + 100, b + 200⟩ := by
      intro a b ha hb
      rw [abs_le] at ha hb
      refine ⟨⟨⟨a, abs_le.2 ⟨by omega, by omega⟩, by simp⟩, ⟨b, abs_le.2 ⟨by omega, by omega⟩, by simp⟩⟩,
        ⟨a + 100, abs_le.2 ⟨by omega, by omega⟩, by simp⟩, ⟨b + 200, abs_le.2 ⟨by omega, by omega⟩, by simp⟩⟩
    have k : ∀ x y : ℚ, ∀ a b : ℤ, x = a → y = b → |a| ≤ 10 → |b| ≤ 10 → GridPt 0 ⟨x, y⟩ ∧ GridPt 0 ⟨x + 100, y + 200⟩ := by
      rintro _ _ a b rfl rfl ha hb
      exact g a b ha hb
    rcases hp with rfl | rfl | rfl | rfl | rfl | rfl | rfl | rfl | rfl | rfl | rfl | rfl
    · exact k _ _ 0 0 (by norm_num) (by norm_num) (by norm_num) (by norm_num)
    · exact k _ _ 10 0 (by norm_num) (by norm_num) (by norm_num) (by norm_num)
    · exact k _ _ 10 10 (by norm_num) (by norm_num) (by norm_num) (by norm_num)
    · exact k _ _ 0 10 (by norm_num) (by norm_num) (by norm_num) (by norm_num)
    · exact k _ _ 0 0 (by norm_num) (by norm_num) (by norm_num) (by norm_num)
    · exact k _ _ 4 4 (by norm_num) (by norm_num) (by norm_num) (by norm_num)
    · exact k _ _ 6 4 (by norm_num) (by norm_num) (by norm_num) (by norm_num)
    · exact k _ _ 6 6 (by norm_num) (by norm_num) (by norm_num) (by norm_num)
    · exact k _ _ 4 6 (by norm_num) (by norm_num) (by norm_num) (by norm_num)
    · exact k _ _ 4 4 (by norm_num) (by norm_num) (by norm_num) (by norm_num)
    · exact k _ _ 5 5 (by norm_num) (by norm_num) (by norm_num) (by norm_num)
    · exact k _ _ 6 5 (by norm_num) (by norm_num) (by norm_num) (by norm_num)

/-- The square with the hole is made, is moved by (100, 200), and has the moved holes and rectangle. -/
example : ((newIx Ix.exact arithQ Env.initial (boxQ 0 0 10 10) true 18#32).bind fun r => (newIx Ix.exact arithQ Env.initial (boxQ 4 4 6 6) true 18#32).bind fun h =>
    (polyMove (exactMaker (1 / 1000) fun _ => 0) (· + ·) Env.initial ⟨100, 200⟩ (.poly ⟨r, true, false⟩ [⟨h, true, false⟩])).map fun
      | .poly r hs => (r.ring.rect.lo.x, r.ring.rect.hi.y, r.convex, r.clockwise, hs.map fun h => (h.ring.points.head?.map (·.x)))
      | .ring _ => (0, 0, false, false, [])) = some (100, 210, true, false, [some 104]) := by
  decide +kernel

end Tg
