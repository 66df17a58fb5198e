import Verif.Lemmas.GeobinWrite
/-!
Header queries, and the GeoBIN parser on arbitrary bytes.
-/
namespace Tg
open Spec Spec.Json

/-! ### The first two dimensions of the full rectangle -/

/-- `f` extends the rectangle `r`. -/
def Extends (f : FullRect) (r : Rect) : Prop :=
  f.min.a = r.min.x ∧ f.min.b = r.min.y ∧ f.max.a = r.max.x ∧ f.max.b = r.max.y

theorem pairLoop_ab (P : Platform) (cs : List F64) (s : V4 × V4) :
    (pairLoop P cs s).1.a = s.1.a ∧ (pairLoop P cs s).1.b = s.1.b ∧
    (pairLoop P cs s).2.a = s.2.a ∧ (pairLoop P cs s).2.b = s.2.b := by
  fun_induction pairLoop P cs s with
  | case1 x y cs lo hi ih => exact ih
  | case2 => exact ⟨rfl, rfl, rfl, rfl⟩

theorem fullrectOther_ext {P f fl cs r} (h : Extends f r) : Extends (fullrectOther P f fl cs) r := by
  unfold fullrectOther
  dsimp only
  split
  · split <;> exact h
  · split
    · split
      · rename_i c d cs
        obtain ⟨a1, a2, a3, a4⟩ := pairLoop_ab P cs ({ f.min with c := c, d := d }, { f.max with c := c, d := d })
        exact ⟨a1.trans h.1, a2.trans h.2.1, a3.trans h.2.2.1, a4.trans h.2.2.2⟩
      · exact h
    · exact h

theorem fullrectStep_ext {P f g r} (h : Extends f r) : Extends (fullrectStep P f g) r := by
  unfold fullrectStep
  dsimp only
  repeat' split
  all_goals exact h

theorem fullrects_ext {P} (gs : List Geom) {f r} (h : Extends f r) : Extends (fullrects P gs f) r := by
  induction gs generalizing f with
  | nil => exact h
  | cons g gs ih => exact ih (fullrectStep_ext h)

theorem fullrect_ext (P) (g : Geom) : Extends (fullrect P g) (geomRect P g) := by
  have h0 : ∀ r, Extends (fullrect0 r) r := fun r => ⟨rfl, rfl, rfl, rfl⟩
  cases g with
  | point | line | poly | err => exact h0 _
  | gpoint fl p z m x =>
    rw [fullrect]
    unfold fullrectPoint
    repeat' split
    all_goals exact h0 _
  | gline | gpoly | mpoint | mline | mpoly => exact fullrectOther_ext (h0 _)
  | coll fl hm gs cs x =>
    rw [fullrect]
    split
    · exact fullrects_ext gs (h0 _)
    · exact fullrectOther_ext (h0 _)

/-! ### Header queries on written data -/

theorem copyDoubles_at {data : List Byte} {i : Nat} {p : List F64} {rest old} (hp : p.length ≤ 4)
    (h : data.drop i = Spec.posn false p ++ rest) : copyDoubles data i p.length old = some (p ++ old.drop p.length) := by
  unfold copyDoubles
  rw [if_neg (by omega), readDoubles_at h]
  rfl

theorem take_len {v : V4} {n} (h : DimsOk n) : (v.list.take n).length = n := by
  rcases h with rfl | rfl | rfl <;> rfl

theorem fullrect_header {F bs} (hd : DimsOk F.dims) (h : HasMbr F bs) (old) :
    tgGeobinFullrect bs old =
      some (F.dims, F.min.list.take F.dims ++ old.1.drop F.dims, F.max.list.take F.dims ++ old.2.drop F.dims) := by
  obtain ⟨hb, b, rest, hh, rfl⟩ := h
  have l1 := take_len (v := F.min) hd
  have l2 := take_len (v := F.max) hd
  have hn : (BitVec.ofNat 8 F.dims).toNat = F.dims := by rcases hd with h | h | h <;> rw [h] <;> rfl
  have h2 : 2 ≤ F.dims ∧ F.dims ≤ 4 := by rcases hd with h | h | h <;> omega
  unfold mbrBytes
  generalize hlo : F.min.list.take F.dims = lo at *
  generalize hhi : F.max.list.take F.dims = hi at *
  generalize hdata : hb :: ((BitVec.ofNat 8 F.dims :: (lo.flatMap (Spec.f64 false) ++ hi.flatMap (Spec.f64 false))) ++ b :: rest) = data
  have hlen : data.length = 2 + 8 * F.dims * 2 + 1 + rest.length := by
    rw [← hdata]; simp only [List.length_cons, List.length_append, flatMap_f64_length, l1, l2]; omega
  have d2 : data.drop 2 = Spec.posn false lo ++ (Spec.posn false hi ++ b :: rest) := by
    rw [← hdata]; simp [Spec.posn]
  have d3 := drop_adv d2
  rw [posn_length, l1] at d3
  obtain ⟨c, t, ht⟩ : ∃ c t, (lo.flatMap (Spec.f64 false) ++ hi.flatMap (Spec.f64 false)) ++ b :: rest = c :: t := by
    cases hx : (lo.flatMap (Spec.f64 false) ++ hi.flatMap (Spec.f64 false)) ++ b :: rest with
    | nil => simp at hx
    | cons c t => exact ⟨c, t, rfl⟩
  have hdd : data = hb :: BitVec.ofNat 8 F.dims :: c :: t := by
    rw [← hdata, List.cons_append, ht]
  unfold tgGeobinFullrect
  have c1 := copyDoubles_at (old := old.1) (by omega) d2
  have c2 := copyDoubles_at (old := old.2) (by omega) d3
  rw [l1] at c1
  rw [l2] at c2
  have g1 : 1#8 ≤ hb ∧ hb ≤ 4#8 := by rcases hh with rfl | rfl | rfl <;> decide
  have g2 : ¬ hb = 1#8 := by rcases hh with rfl | rfl | rfl <;> decide
  split
  · rename_i h' d' x' y'
    simp only [List.cons.injEq] at hdd
    obtain ⟨e1, e2, -, -⟩ := hdd
    subst e1 e2
    rw [hn, if_pos g1, if_neg (fun h => g2 h.1), if_pos ⟨g2, by omega⟩]
    dsimp only
    rw [c1, c2]
  · rename_i hne
    exact absurd hdd (hne _ _ _ _)

theorem rdF64_head {data : List Byte} {i : Nat} {x : F64} {l : List F64} {rest}
    (h : data.drop i = Spec.posn false (x :: l) ++ rest) : rdF64 data i false = some x := by
  simp only [Spec.posn, List.flatMap_cons, List.append_assoc] at h
  exact rdF64_at h

theorem rdF64_second {data : List Byte} {i : Nat} {x y : F64} {l : List F64} {rest}
    (h : data.drop i = Spec.posn false (x :: y :: l) ++ rest) : rdF64 data (i + 8) false = some y := by
  have h' : data.drop i = Spec.f64 false x ++ (Spec.posn false (y :: l) ++ rest) := by
    rw [h]; simp [Spec.posn]
  have := drop_adv h'
  rw [f64_length] at this
  exact rdF64_head this

theorem V4.take_cons (v : V4) {n} (h : 2 ≤ n) : v.list.take n = v.a :: v.b :: (v.list.take n).drop 2 := by
  match n, h with
  | n + 2, _ => simp [V4.list]

theorem rect_header {F r bs} (hd : DimsOk F.dims) (hr : Extends F r) (h : HasMbr F bs) (center) :
    tgGeobinRect bs = some r ∧ tgGeobinPoint center bs = some (center r) := by
  obtain ⟨hb, b, rest, hh, rfl⟩ := h
  have l1 := take_len (v := F.min) hd
  have l2 := take_len (v := F.max) hd
  have hn : (BitVec.ofNat 8 F.dims).toNat = F.dims := by rcases hd with h | h | h <;> rw [h] <;> rfl
  have h2 : 2 ≤ F.dims ∧ F.dims ≤ 4 := by rcases hd with h | h | h <;> omega
  unfold mbrBytes
  have k1 := V4.take_cons F.min h2.1
  have k2 := V4.take_cons F.max h2.1
  generalize hlo : F.min.list.take F.dims = lo at *
  generalize hhi : F.max.list.take F.dims = hi at *
  generalize hdata : hb :: ((BitVec.ofNat 8 F.dims :: (lo.flatMap (Spec.f64 false) ++ hi.flatMap (Spec.f64 false))) ++ b :: rest) = data
  have hlen : data.length = 2 + 8 * F.dims * 2 + 1 + rest.length := by
    rw [← hdata]; simp only [List.length_cons, List.length_append, flatMap_f64_length, l1, l2]; omega
  have d2 : data.drop 2 = Spec.posn false lo ++ (Spec.posn false hi ++ b :: rest) := by
    rw [← hdata]; simp [Spec.posn]
  have d3 := drop_adv d2
  rw [posn_length, l1] at d3
  rw [k1] at d2
  rw [k2] at d3
  have r1 := rdF64_head d2
  have r2 := rdF64_second d2
  have r3 := rdF64_head d3
  have r4 := rdF64_second d3
  obtain ⟨c, t, ht⟩ : ∃ c t, (lo.flatMap (Spec.f64 false) ++ hi.flatMap (Spec.f64 false)) ++ b :: rest = c :: t := by
    cases hx : (lo.flatMap (Spec.f64 false) ++ hi.flatMap (Spec.f64 false)) ++ b :: rest with
    | nil => simp at hx
    | cons c t => exact ⟨c, t, rfl⟩
  have hdd : data = hb :: BitVec.ofNat 8 F.dims :: c :: t := by
    rw [← hdata, List.cons_append, ht]
  have g1 : 1#8 ≤ hb ∧ hb ≤ 4#8 := by rcases hh with rfl | rfl | rfl <;> decide
  have g2 : ¬ hb = 1#8 := by rcases hh with rfl | rfl | rfl <;> decide
  obtain ⟨e1, e2, e3, e4⟩ := hr
  have er : r = ⟨⟨F.min.a, F.min.b⟩, ⟨F.max.a, F.max.b⟩⟩ := by rw [e1, e2, e3, e4]
  constructor
  · unfold tgGeobinRect
    split
    · rename_i h' d' x' y'
      simp only [List.cons.injEq] at hdd
      obtain ⟨e1, e2, -, -⟩ := hdd
      subst e1 e2
      rw [hn, if_pos g1, if_neg (fun h => g2 h.1), if_pos ⟨g2, by omega⟩]
      dsimp only
      rw [if_pos h2.1, r1, r2, r3, r4, er]
    · rename_i hne
      exact absurd hdd (hne _ _ _ _)
  · unfold tgGeobinPoint
    split
    · rename_i h' d' x' y'
      simp only [List.cons.injEq] at hdd
      obtain ⟨e1, e2, -, -⟩ := hdd
      subst e1 e2
      rw [hn, if_pos g1, if_neg (fun h => g2 h.1), if_pos ⟨g2, by omega⟩]
      dsimp only
      rw [if_pos h2.1, r1, r2, r3, r4, er]
    · rename_i hne
      exact absurd hdd (hne _ _ _ _)

theorem pointDims_code (z m) : pointDims (BitVec.ofNat 32 (typeCode .point z m)) = dims z m := by
  cases z <;> cases m <;> decide

/-- The header queries on a bare point. -/
theorem point_header {z m} {p : List F64} (hp : p.length = dims z m) (old) (center) :
    tgGeobinFullrect (encode (.point z m (some p))) old = some (dims z m, p ++ old.1.drop p.length, p ++ old.2.drop p.length) ∧
    tgGeobinRect (encode (.point z m (some p))) = some ⟨⟨p.getD 0 0, p.getD 1 0⟩, ⟨p.getD 0 0, p.getD 1 0⟩⟩ ∧
    tgGeobinPoint center (encode (.point z m (some p))) = some ⟨p.getD 0 0, p.getD 1 0⟩ := by
  have hl := dims_ge z m
  have hl4 := dims_le z m
  have hc := pointDims_code z m
  have ht : ∀ t : BitVec 32, t = BitVec.ofNat 32 (typeCode .point z m) →
      (t = 1#32 ∨ t = 1001#32 ∨ t = 2001#32 ∨ t = 3001#32) := by
    rintro t rfl; cases z <;> cases m <;> decide
  simp only [encode, header]
  generalize hty : BitVec.ofNat 32 (typeCode .point z m) = ty at *
  generalize hdata : (if false = true then 0#8 else 1#8) :: Spec.u32 false ty ++ Spec.posn false p = data
  have d1 : data.drop 1 = Spec.u32 false ty ++ Spec.posn false p := by rw [← hdata]; rfl
  have d5 := drop_adv d1
  rw [u32_length] at d5
  have hlen : data.length = 5 + 8 * dims z m := by
    rw [← hdata]; simp [u32_length, posn_length, hp]; omega
  have t1 := rdU32_at d1
  have d5' : data.drop 5 = Spec.posn false p ++ [] := by rw [List.append_nil]; exact d5
  have c1 := fun old => copyDoubles_at (old := old) (by omega) d5'
  rw [hp] at c1
  obtain ⟨c, d, t, hdd⟩ : ∃ c d t, data = 1#8 :: c :: d :: t := by
    rw [← hdata]; exact ⟨_, _, _, rfl⟩
  obtain ⟨x, y, l, rfl⟩ : ∃ x y l, p = x :: y :: l := by
    match p, hp with
    | [], hp => simp at hp; omega
    | [_], hp => simp at hp; omega
    | x :: y :: l, _ => exact ⟨x, y, l, rfl⟩
  have r1 := rdF64_head d5'
  have r2 := rdF64_second d5'
  refine ⟨?_, ?_, ?_⟩
  · unfold tgGeobinFullrect
    split
    · rename_i h' d' x' y'
      simp only [List.cons.injEq] at hdd
      obtain ⟨e1, e2, -, -⟩ := hdd
      subst e1 e2
      rw [if_pos (by decide), if_pos ⟨rfl, by omega⟩, t1]
      dsimp only
      rw [hc, if_pos ⟨by omega, by omega⟩, c1, c1, hp]
    · rename_i hne
      exact absurd hdd (hne _ _ _ _)
  · unfold tgGeobinRect
    split
    · rename_i h' d' x' y'
      simp only [List.cons.injEq] at hdd
      obtain ⟨e1, e2, -, -⟩ := hdd
      subst e1 e2
      rw [if_pos (by decide), if_pos ⟨rfl, by omega⟩, t1]
      dsimp only
      rw [if_pos (ht ty rfl), r1, r2]
      rfl
    · rename_i hne
      exact absurd hdd (hne _ _ _ _)
  · unfold tgGeobinPoint
    split
    · rename_i h' d' x' y'
      simp only [List.cons.injEq] at hdd
      obtain ⟨e1, e2, -, -⟩ := hdd
      subst e1 e2
      rw [if_pos (by decide), if_pos ⟨rfl, by omega⟩, t1]
      dsimp only
      rw [if_pos (ht ty rfl), r1, r2]
      rfl
    · rename_i hne
      exact absurd hdd (hne _ _ _ _)

/-- The full rectangle of a non-empty point is its position. -/
theorem fullrect_point {P g z m p} (ht : g.type = .point) (hv : view g = some (.point z m (some p))) :
    p.length = dims z m ∧ (fullrect P g).dims = dims z m ∧ (fullrect P g).min.list.take (dims z m) = p ∧
    (fullrect P g).max.list.take (dims z m) = p ∧ geomRect P g = ⟨⟨p.getD 0 0, p.getD 1 0⟩, ⟨p.getD 0 0, p.getD 1 0⟩⟩ := by
  cases g <;> simp [Geom.type] at ht
  · simp only [view] at hv
    split at hv
    · cases hv
    · cases hv
      exact ⟨rfl, rfl, rfl, rfl, rfl⟩
  · rename_i fl p z m x
    simp only [view] at hv
    split at hv
    · split at hv <;> cases hv
    · cases hv
      obtain ⟨hz, hm, _, _, _, _, _⟩ := fl
      cases hz <;> cases hm <;> exact ⟨rfl, rfl, rfl, rfl, rfl⟩
  · simp [view] at hv

/-! ### Arbitrary bytes -/

theorem featLoop_safe {child : Nat → R Geom} {len : Nat} {bad : Prop}
    (hc : ∀ i, i ≤ len → Safe len i bad (child i)) (c : Nat) {i : Nat} (hi : i ≤ len) :
    Safe len i bad (featLoop child c i) := by
  induction c generalizing i with
  | zero => exact ⟨Nat.le_refl _, hi⟩
  | succ c ih =>
    rw [featLoop]
    have h := hc i hi
    cases hr : child i with
    | ub => rw [hr] at h; exact h
    | fail j e =>
      rw [hr] at h
      cases j with
      | none => trivial
      | some j =>
        have h2 := (ih (i := j) h.2).mono h.1 id
        dsimp only
        safe_bind h2
        rename_i k gs hk
        rw [hk] at h2
        exact h2
    | ok j g =>
      rw [hr] at h
      have h2 := (ih (i := j) h.2).mono h.1 id
      dsimp only
      safe_bind h2
      rename_i k gs hk
      rw [hk] at h2
      exact h2

theorem parseFc_safe {child : Nat → R Geom} {bad : Prop} (data : List Byte)
    (hc : ∀ i, i ≤ data.length → Safe data.length i bad (child i)) {i : Nat} :
    Safe data.length i bad (parseFc child data i) := by
  unfold parseFc
  rcases readU32_cases data i false (.fail none invalidBinary) _ with h | ⟨x, hx, hl, h⟩
  · rw [h]; trivial
  · rw [h]
    clear h
    have h := (featLoop_safe hc x.toNat (i := i + 4) hl).mono (i' := i) (by omega) id
    safe_bind h
    rename_i j r hr
    rw [hr] at h
    exact h

theorem parseGeobinTail_safe {child wkb : Nat → R Geom} {bad : Prop} (data : List Byte)
    (hc : ∀ i, i ≤ data.length → Safe data.length i bad (child i))
    (hw : ∀ i, i ≤ data.length → Safe data.length i bad (wkb i)) {i : Nat} (hi : i ≤ data.length) (head x) :
    Safe data.length i bad (parseGeobinTail child wkb head x data i) := by
  unfold parseGeobinTail
  have h : Safe data.length i bad (if head = 4#8 then parseFc child data i else wkb i) := by
    split
    · exact parseFc_safe data hc
    · exact hw i hi
  safe_bind h
  rename_i j r hr
  rw [hr] at h
  exact h

theorem takeWhile_len {α} (p : α → Bool) (l : List α) : (l.takeWhile p).length ≤ l.length := by
  induction l with
  | nil => simp
  | cons a l ih => rw [List.takeWhile_cons]; split <;> simp; omega

theorem parseGeobinJson_safe {child wkb : Nat → R Geom} {bad : Prop} (data : List Byte)
    (hc : ∀ i, i ≤ data.length → Safe data.length i bad (child i))
    (hw : ∀ i, i ≤ data.length → Safe data.length i bad (wkb i)) {i : Nat} (hi : i ≤ data.length) (head) :
    Safe data.length i bad (parseGeobinJson child wkb head data i) := by
  unfold parseGeobinJson
  have hx := takeWhile_len (· ≠ 0#8) (data.drop i)
  generalize (data.drop i).takeWhile (· ≠ 0#8) = x at hx ⊢
  rw [List.length_drop] at hx
  dsimp only
  have key : ∀ k, i ≤ k → k ≤ data.length → Safe data.length i bad (parseGeobinTail child wkb head x data k) :=
    fun k h1 h2 => (parseGeobinTail_safe data hc hw h2 head x).mono h1 id
  generalize hk : (if i + x.length < data.length then i + x.length + 1 else i + x.length) = k
  have hk2 : i ≤ k ∧ k ≤ data.length := by
    rw [← hk]; split <;> omega
  split
  · trivial
  · split
    · cases hj : Json.jsonValidn x with
      | none => exact absurd hj (Json.jsonValidn_total x)
      | some b =>
        cases b
        · trivial
        · exact key k hk2.1 hk2.2
    · exact key k hk2.1 hk2.2

theorem parseGeobin_safe (data : List Byte) (hlen : data.length < 2^32) (r : Nat) {i : Nat} (hi : i ≤ data.length) :
    Safe data.length i (HugeCount data) (parseGeobin r data i) := by
  induction r generalizing i with
  | zero => trivial
  | succ r ih =>
    rw [parseGeobin]
    split
    · trivial
    · have hl : (data.drop i).length = data.length - i := by simp
      cases hd : data.drop i with
      | nil => rw [hd] at hl; simp at hl; omega
      | cons b rest =>
        dsimp only
        split
        · exact parseWkb_safe data hlen (r + 1) hi
        · unfold parseGeobinMbr
          split
          · trivial
          · split
            · trivial
            · have hl2 : (data.drop (i + 1)).length = data.length - (i + 1) := by simp
              cases hd2 : data.drop (i + 1) with
              | nil => rw [hd2] at hl2; simp at hl2; omega
              | cons d rest2 =>
                have key : ∀ k, i ≤ k → k ≤ data.length → Safe data.length i (HugeCount data)
                    (parseGeobinJson (parseGeobin r data) (parseWkb (r + 1) data) b data k) := fun k h1 h2 =>
                  (parseGeobinJson_safe data (fun i hi => ih hi) (fun i hi => parseWkb_safe data hlen (r + 1) hi) h2 b).mono h1 id
                dsimp only
                split
                · split
                  · trivial
                  · split
                    · trivial
                    · exact key _ (by omega) (by omega)
                · exact key _ (by omega) (by omega)

/-! Nesting. -/

theorem nest_finish (head x g) : nest (finishGeobin head x g) = nest g := by
  have h1 : ∀ g, nest (wrapGeom g) = nest g := by intro g; cases g <;> rfl
  have h2 : ∀ f g, nest (Geom.mapFlags f g) = nest g := by intro f g; cases g <;> rfl
  have h3 : ∀ x g, nest (Geom.setXjson x g) = nest g := by intro f g; cases g <;> rfl
  unfold finishGeobin
  dsimp only
  repeat' split
  all_goals simp [h1, h2, h3]

theorem featLoop_nest {child : Nat → R Geom} {r : Nat} (hr : 0 < r) (hc : ∀ i j g, child i = .ok j g → nest g < r) (c : Nat) :
    ∀ i j gs, featLoop child c i = .ok j gs → nests gs ≤ r := by
  induction c with
  | zero => intro i j gs h; simp only [featLoop] at h; cases h; simp [nests]
  | succ c ih =>
    intro i j gs h
    rw [featLoop] at h
    split at h
    · cases h
    · cases h
    · split at h
      · cases h
      · cases h
      · rename_i h2
        cases h
        have := ih _ _ _ h2
        simp only [nests, nest]
        omega
    · rename_i h1
      split at h
      · cases h
      · cases h
      · rename_i h2
        cases h
        have := ih _ _ _ h2
        have := hc _ _ _ h1
        simp only [nests]
        omega

theorem parseGeobin_cases {r data i j g} (h : parseGeobin (r + 1) data i = .ok j g) :
    (∃ k, parseWkb (r + 1) data k = .ok j g) ∨
    (∃ k head x g', parseWkb (r + 1) data k = .ok j g' ∧ g = finishGeobin head x g') ∨
    (∃ k c head x gs, featLoop (parseGeobin r data) c k = .ok j gs ∧ data.drop i = head ∧ head.head? = some 4#8 ∧
      g = finishGeobin 4#8 x (.coll { isFeatureCol := true } true gs [] none)) := by
  rw [parseGeobin] at h
  split at h
  · cases h
  · split at h
    · cases h
    · rename_i head t hd
      split at h
      · exact .inl ⟨_, h⟩
      · have tail : ∀ x k, parseGeobinTail (parseGeobin r data) (parseWkb (r + 1) data) head x data k = .ok j g →
            (∃ k head x g', parseWkb (r + 1) data k = .ok j g' ∧ g = finishGeobin head x g') ∨
            (∃ k c head x gs, featLoop (parseGeobin r data) c k = .ok j gs ∧ data.drop i = head ∧ head.head? = some 4#8 ∧
              g = finishGeobin 4#8 x (.coll { isFeatureCol := true } true gs [] none)) := by
          intro x k h
          unfold parseGeobinTail at h
          split at h
          · cases h
          · cases h
          · rename_i j' g' hr
            cases h
            split at hr
            · rename_i h4
              right
              unfold parseFc readU32 at hr
              split at hr
              · cases hr
              · split at hr
                · cases hr
                · dsimp only at hr
                  split at hr
                  · cases hr
                  · cases hr
                  · rename_i hl
                    cases hr
                    subst h4
                    exact ⟨_, _, _, x, _, hl, hd, rfl, rfl⟩
            · exact .inl ⟨_, _, _, _, hr, rfl⟩
        right
        unfold parseGeobinMbr at h
        have js : ∀ k, parseGeobinJson (parseGeobin r data) (parseWkb (r + 1) data) head data k = .ok j g →
            (∃ k head x g', parseWkb (r + 1) data k = .ok j g' ∧ g = finishGeobin head x g') ∨
            (∃ k c head x gs, featLoop (parseGeobin r data) c k = .ok j gs ∧ data.drop i = head ∧ head.head? = some 4#8 ∧
              g = finishGeobin 4#8 x (.coll { isFeatureCol := true } true gs [] none)) := by
          intro k h
          unfold parseGeobinJson at h
          dsimp only at h
          generalize (if k + ((data.drop k).takeWhile (· ≠ 0#8)).length < data.length then
            k + ((data.drop k).takeWhile (· ≠ 0#8)).length + 1
            else k + ((data.drop k).takeWhile (· ≠ 0#8)).length) = k' at h
          split at h
          · cases h
          · split at h
            · split at h
              · cases h
              · cases h
              · exact tail _ _ h
            · exact tail _ _ h
        split at h
        · cases h
        · split at h
          · cases h
          · split at h
            · cases h
            · dsimp only at h
              split at h
              · split at h
                · cases h
                · split at h
                  · cases h
                  · exact js _ h
              · exact js _ h

theorem parseGeobin_nest (data : List Byte) (r : Nat) : ∀ i j g, parseGeobin r data i = .ok j g → nest g < r := by
  induction r with
  | zero => intro i j g h; cases h
  | succ r ih =>
    intro i j g h
    rcases parseGeobin_cases h with ⟨k, h⟩ | ⟨k, head, x, g', h', rfl⟩ | ⟨k, c, head, x, gs, h', _, _, rfl⟩
    · exact parseWkb_nest data _ _ _ _ h
    · rw [nest_finish]; exact parseWkb_nest data _ _ _ _ h'
    · rw [nest_finish]
      cases r with
      | zero =>
        have : c = 0 := by
          cases c with
          | zero => rfl
          | succ c => simp [featLoop, parseGeobin] at h'
        subst this
        cases h'
        simp [nest, nests]
      | succ r =>
        have := featLoop_nest (by omega) ih c _ _ _ h'
        simp only [nest]
        omega

/-! No error values. -/

theorem parseWkb_noErr (data : List Byte) (r : Nat) : ∀ i j g, parseWkb r data i = .ok j g → noErr g := by
  have leaf : ∀ g : Geom, nest g = 0 → (∀ e, g ≠ .err e) → (∀ a b c d e, g ≠ .coll a b c d e) → noErr g := by
    intro g _ h1 h2
    cases g with
    | err e => exact absurd rfl (h1 e)
    | coll a b c d e => exact absurd rfl (h2 a b c d e)
    | _ => rw [noErr] <;> simp
  induction r with
  | zero =>
    intro i j g h
    rw [parseWkb] at h
    split at h
    · cases h
    · split at h <;> cases h
  | succ r ih =>
    have loop : ∀ want z m c i j gs, childLoop (parseWkb r data) want z m c i = .ok j gs → ∀ g ∈ gs, noErr g := by
      intro want z m c
      induction c with
      | zero => intro i j gs h; simp only [childLoop] at h; cases h; simp
      | succ c ihc =>
        intro i j gs h
        rw [childLoop] at h
        split at h
        · cases h
        · cases h
        · split at h
          · cases h
          · split at h
            · cases h
            · cases h
            · rename_i h1 _ _ _ _ h2
              cases h
              intro g hg
              rcases List.mem_cons.1 hg with rfl | hg
              · exact ih _ _ _ h1
              · exact ihc _ _ _ h2 g hg
    have multi : ∀ t want z m i swap j g, parseMulti (parseWkb r data) t want z m data i swap = .ok j g → noErr g := by
      intro t want z m i swap j g h
      unfold parseMulti readU32 at h
      split at h
      · cases h
      · split at h
        · cases h
        · dsimp only at h
          split at h
          · cases h
          · cases h
          · rename_i hl
            cases h
            have := loop _ _ _ _ _ _ _ hl
            unfold buildMulti
            cases t
            all_goals dsimp only
            all_goals first
              | (rw [noErr]; exact this)
              | (rw [noErr] <;> simp)
    have hd : ∀ ty i swap j g, wkbDispatch (parseWkb r data) ty data i swap = .ok j g → noErr g := by
      intro ty i swap j g h
      unfold wkbDispatch at h
      split at h
      · cases h
      · unfold parsePoint at h
        dsimp only at h
        split at h
        · cases h
        · split at h
          · cases h
          · split at h
            · cases h; rw [noErr] <;> simp
            · cases h
              repeat' split
              all_goals (rw [noErr] <;> simp)
      · unfold parseLine at h
        split at h
        · cases h
        · cases h
        · cases h
          repeat' split
          all_goals (rw [noErr] <;> simp)
      · unfold parsePoly readU32 at h
        split at h
        · cases h
        · split at h
          · cases h
          · dsimp only at h
            split at h
            · cases h
            · cases h
            · cases h
              repeat' split
              all_goals (rw [noErr] <;> simp)
      all_goals exact multi _ _ _ _ _ _ _ _ h
    intro i j g h
    rw [parseWkb] at h
    split at h
    · cases h
    · split at h
      · cases h
      · split at h
        · cases h
        · unfold parseBody readU32 at h
          split at h
          · cases h
          · split at h
            · cases h
            · dsimp only at h
              split at h
              · split at h
                · cases h
                · split at h
                  · cases h
                  · exact hd _ _ _ _ _ h
              · exact hd _ _ _ _ _ h

theorem noErr_finish {head x g} (h : noErr g) : noErr (finishGeobin head x g) := by
  have h1 : ∀ g, noErr g → noErr (wrapGeom g) := by
    intro g h; cases g <;> first | exact h | (unfold wrapGeom; rw [noErr] <;> simp)
  have h2 : ∀ f g, noErr g → noErr (Geom.mapFlags f g) := by
    intro f g h
    cases g <;> simp only [Geom.mapFlags] <;> first | exact h | (rw [noErr] at h ⊢; exact h; done) | (rw [noErr] <;> simp)
  have h3 : ∀ x g, noErr g → noErr (Geom.setXjson x g) := by
    intro f g h
    cases g <;> simp only [Geom.setXjson] <;> first | exact h | (rw [noErr] at h ⊢; exact h; done) | (rw [noErr] <;> simp)
  unfold finishGeobin
  dsimp only
  repeat' split
  all_goals first | exact h3 _ _ (h2 _ _ (h1 _ h)) | exact h3 _ _ (h1 _ h) | exact h3 _ _ (h2 _ _ h) | exact h2 _ _ (h1 _ h) | exact h1 _ h | exact h3 _ _ h | exact h2 _ _ h | exact h

theorem parseGeobin_noErr {data : List Byte} {r i j g} (h : parseGeobin r data i = .ok j g)
    (h4 : (data.drop i).head? ≠ some 4#8) : noErr g := by
  cases r with
  | zero => cases h
  | succ r =>
    rcases parseGeobin_cases h with ⟨k, h⟩ | ⟨k, head, x, g', h', rfl⟩ | ⟨k, c, head, x, gs, h', hd, h4', rfl⟩
    · exact parseWkb_noErr _ _ _ _ _ h
    · exact noErr_finish (parseWkb_noErr _ _ _ _ _ h')
    · exact absurd h4' (hd ▸ h4)

end Tg
