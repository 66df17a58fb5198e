import Verif.Props.IeeeMissed
import Verif.Props.Float32
import Verif.Props.Series
import Verif.Lemmas.SharedPlain
/-!
C23 for an arithmetic that need not be symmetric: the pairs are those for which the test says yes when it is asked in the order of the search. With doubles the
order matters, so that `tg_line_intersects_line` depends on the order of its arguments, and on whether the lines have an index.
-/
namespace Tg

open S Spec.Double

/-- C23, for every arithmetic. The search hands every pair of segments for which the test says yes to the callback, once. The test is asked with the segment
of the second ring first if only the second ring has an index. Missing from the full statement: the indexed rings of `C22_search_partial`. -/
theorem C23_pairs_any_partial.{u} {α β : Type*} [LinearOrder α] [LinearOrder β] [Zero α] {f : Ix α β} (hf : f.Lawful) {A : Arith α}
    {e₁ e₂ : Env} (he₁ : e₁.Ok) (he₂ : e₂.Ok) {pa pb : List (Pt α)} {ca cb : Bool} {ix₁ ix₂ : BitVec 32} {a b : Ring α β}
    (ha : newIx f A e₁ pa ca ix₁ = some a) (hb : newIx f A e₂ pb cb ix₂ = some b)
    (hca : (segments pa ca).length < pa.length ∨ pa.length % spreadOf e₁ ix₁ = 0 ∨ a.index = none)
    (hcb : (segments pb cb).length < pb.length ∨ pb.length % spreadOf e₂ ix₂ = 0 ∨ b.index = none)
    (hta : f.Tight (segments pa ca)) (htb : f.Tight (segments pb cb)) :
    ∃ l : List (Pair α), l.Perm (((segments pa ca).zipIdx.product (segments pb cb).zipIdx).filter fun x =>
        if a.index = none ∧ b.index ≠ none then segIntersects A x.2.1 x.1.1 else segIntersects A x.1.1 x.2.1) ∧
      ∀ (σ : Type u) (iter : Iter2 α σ) (st : σ), (ringRingSearch f A a b iter st).map (·.1) =
        some (visit (fun x : Pair α => iter x.1.1 x.1.2 x.2.1 x.2.2) l st) := by
  obtain ⟨h1, -⟩ := newIx_some hf he₁ ha
  obtain ⟨h2, -⟩ := newIx_some hf he₂ hb
  obtain ⟨l, h3, h4⟩ := (ringRingSearch_order hf (A := A) h1 h2 (by rcases hca with h | h | h; exacts [.inl (.inl h), .inl (.inr h), .inr h])
    (by rcases hcb with h | h | h; exacts [.inl (.inl h), .inl (.inr h), .inr h]) hta htb).perm
  refine ⟨l, h3.trans (List.Perm.of_eq (List.filter_congr fun x _ => ?_)), h4⟩
  unfold Arith.order
  split_ifs with h
  · rw [segIntersects_flip]
  · rfl

section
variable {F : Fp} (hF : Rounding F.rnd)
include hF

/-- C23 fails with doubles of 29 bits: the vertical segment from the middle (201829269, 187645295) of the segment from (0, 0) to (403658538, 375290590)
intersects it in one order but not in the other. -/
theorem C23_order_ieee :
    segIntersects F.arith ⟨⟨0, 0⟩, ⟨403658538, 375290590⟩⟩ ⟨⟨201829269, 187645295⟩, ⟨201829269, -80790161⟩⟩ = false ∧
    segIntersects F.arith ⟨⟨201829269, 187645295⟩, ⟨201829269, -80790161⟩⟩ ⟨⟨0, 0⟩, ⟨403658538, 375290590⟩⟩ = true := by
  have ex : ∀ n : ℤ, |n| ≤ 2 ^ 53 → F.fl n = n := fun n h => by
    have := F.fl_int hF (n := n) (j := 0) h (by norm_num) (by norm_num)
    simpa using this
  have e : ∀ a b : ℚ, a ≠ b → feq a b = false := fun a b h => by rw [← Bool.not_eq_true, feq_iff]; exact h
  have e' : ∀ a : ℚ, feq a a = true := fun a => by rw [feq_iff]
  have m0 : F.fl 75744625442278710 = 75744625442278704 := by
    have := F.fl_nearest hF (q := 75744625442278710) (n := 4734039090142419) (j := 4) (by norm_num) (by norm_num) (by norm_num) (by norm_num) (by norm_num [abs_lt])
    rw [this]
    norm_num
  have m0' : F.fl (-75744625442278710) = -75744625442278704 := by
    have := F.fl_nearest hF (q := -75744625442278710) (n := -4734039090142419) (j := 4) (by norm_num) (by norm_num) (by norm_num) (by norm_num) (by norm_num [abs_lt])
    rw [this]
    norm_num
  have z : F.fl 0 = 0 := F.fl_zero hF
  have i1 : F.fl 201829269 = 201829269 := by exact_mod_cast ex 201829269 (by norm_num)
  have i2 : F.fl 187645295 = 187645295 := by exact_mod_cast ex 187645295 (by norm_num)
  have i3 : F.fl 403658538 = 403658538 := by exact_mod_cast ex 403658538 (by norm_num)
  have i4 : F.fl 375290590 = 375290590 := by exact_mod_cast ex 375290590 (by norm_num)
  have i5 : F.fl (-201829269) = -201829269 := by exact_mod_cast ex (-201829269) (by norm_num)
  have i6 : F.fl (-187645295) = -187645295 := by exact_mod_cast ex (-187645295) (by norm_num)
  have i7 : F.fl (-268435456) = -268435456 := by exact_mod_cast ex (-268435456) (by norm_num)
  refine ⟨?_, ?_⟩
  · have hm := (C66_middle_missed hF).1
    have ho : F.onSeg ⟨201829269, 187645295⟩ ⟨⟨0, 0⟩, ⟨403658538, 375290590⟩⟩ = false := hm
    have hx : F.segX ⟨⟨0, 0⟩, ⟨403658538, 375290590⟩⟩ ⟨⟨201829269, 187645295⟩, ⟨201829269, -80790161⟩⟩ = false := by
      unfold Fp.segX
      dsimp only
      rw [ho]
      norm_num [Fp.sub, Fp.mul, i1, i2, i3, i4, i5, i6, m0, z, e', Fp.onSeg, Seg.rect, Rect.coversPt]
    unfold segIntersects
    rw [show F.arith.segX = F.segX from rfl, hx]
    norm_num [pteq, e]
  · have g1 : F.fl 54178131858161664 = 54178131858161664 := by
      have := F.fl_int hF (n := 201829269) (j := 28) (by norm_num) (by norm_num) (by norm_num)
      norm_num at this
      exact this
    have g2 : F.fl 108356263716323328 = 108356263716323328 := by
      have := F.fl_int hF (n := 403658538) (j := 28) (by norm_num) (by norm_num) (by norm_num)
      norm_num at this
      exact this
    have g3 : F.fl (-108356263716323328) = -108356263716323328 := by
      have := F.fl_int hF (n := -403658538) (j := 28) (by norm_num) (by norm_num) (by norm_num)
      norm_num at this
      exact this
    have d1 : F.fl (1 / 108356263716323328) = (5989843919092969 : ℤ) * 2 ^ (-109 : ℤ) :=
      F.fl_nearest hF (by norm_num) (by norm_num) (by norm_num) (by norm_num) (by norm_num [abs_lt])
    have d2 : F.fl (54178131858161664 * ((5989843919092969 : ℤ) * 2 ^ (-109 : ℤ))) = (9007199254740991 : ℤ) * 2 ^ (-54 : ℤ) :=
      F.fl_nearest hF (by norm_num) (by norm_num) (by norm_num) (by norm_num) (by norm_num [abs_lt])
    have hx : F.segX ⟨⟨201829269, 187645295⟩, ⟨201829269, -80790161⟩⟩ ⟨⟨0, 0⟩, ⟨403658538, 375290590⟩⟩ = true := by
      have a1 : F.sub 0 201829269 = -201829269 := by rw [Fp.sub, zero_sub, i5]
      have a2 : F.sub 0 187645295 = -187645295 := by rw [Fp.sub, zero_sub, i6]
      have a3 : F.sub 201829269 201829269 = 0 := by rw [Fp.sub, sub_self, z]
      have a4 : F.sub (-80790161) 187645295 = -268435456 := by rw [Fp.sub, ← i7]; norm_num
      have a5 : F.mul (-201829269) (-268435456) = 54178131858161664 := by rw [Fp.mul, ← g1]; norm_num
      have a6 : F.mul (-187645295) 0 = 0 := by rw [Fp.mul, mul_zero, z]
      have a7 : F.sub 54178131858161664 0 = 54178131858161664 := by rw [Fp.sub, sub_zero, g1]
      have a8 : F.sub 403658538 0 = 403658538 := by rw [Fp.sub, sub_zero, i3]
      have a9 : F.sub 375290590 0 = 375290590 := by rw [Fp.sub, sub_zero, i4]
      have b1 : F.mul 0 375290590 = 0 := by rw [Fp.mul, zero_mul, z]
      have b2 : F.mul (-268435456) 403658538 = -108356263716323328 := by rw [Fp.mul, ← g3]; norm_num
      have b3 : F.sub 0 (-108356263716323328) = 108356263716323328 := by rw [Fp.sub, zero_sub, neg_neg, g2]
      have b4 : F.mul (-201829269) 375290590 = -75744625442278704 := by rw [Fp.mul, ← m0']; norm_num
      have b5 : F.mul (-187645295) 403658538 = -75744625442278704 := by rw [Fp.mul, ← m0']; norm_num
      have b6 : F.sub (-75744625442278704) (-75744625442278704) = 0 := by rw [Fp.sub, sub_self, z]
      have b7 : F.div 1 108356263716323328 = (5989843919092969 : ℤ) * 2 ^ (-109 : ℤ) := by rw [Fp.div, if_neg (by norm_num), d1]
      have b8 : F.mul 0 ((5989843919092969 : ℤ) * 2 ^ (-109 : ℤ)) = 0 := by rw [Fp.mul, zero_mul, z]
      have b9 : F.mul 54178131858161664 ((5989843919092969 : ℤ) * 2 ^ (-109 : ℤ)) = (9007199254740991 : ℤ) * 2 ^ (-54 : ℤ) := by rw [Fp.mul, d2]
      unfold Fp.segX
      dsimp only
      rw [a1, a2, a3, a4, a5, a6, a7, e 54178131858161664 0 (by norm_num), a8, a9, b1, b2, b3, e 108356263716323328 0 (by norm_num), b4, b5, b6, b7, b8, b9]
      norm_num
    unfold segIntersects
    rw [show F.arith.segX = F.segX from rfl, hx]
    norm_num [Seg.rect, Rect.intersects]

variable {r : ℚ → ℚ} (hr : Spec.Float32.Rounding r)
include hr

/-- C23 fails with doubles of 29 bits: of two lines that meet, `tg_line_intersects_line` says that they do not, if neither has an index; and that they do, if
the second has an index, or comes first. -/
theorem C23_index_changes_answer (fuel : Nat) : ∃ a b b' : Ring ℚ ℚ,
    newIx (F.ix32 r) F.arith .initial [⟨0, 0⟩, ⟨403658538, 375290590⟩] false 1#32 = some a ∧
    newIx (F.ix32 r) F.arith .initial [⟨201829269, 187645295⟩, ⟨201829269, -80790161⟩, ⟨201829268, -80790161⟩, ⟨201829267, -80790161⟩] false 1#32 = some b ∧
    newIx (F.ix32 r) F.arith .initial [⟨201829269, 187645295⟩, ⟨201829269, -80790161⟩, ⟨201829268, -80790161⟩, ⟨201829267, -80790161⟩] false
      (indexWithSpread 2#32 2) = some b' ∧
    lineXLine ⟨F.ix32 r, F.arith, F.rarith, fuel⟩ a b = some false ∧ lineXLine ⟨F.ix32 r, F.arith, F.rarith, fuel⟩ a b' = some true ∧
    lineXLine ⟨F.ix32 r, F.arith, F.rarith, fuel⟩ b a = some true := by
  have hf := C68_lawful hF hr
  have ho : Env.initial.Ok := ⟨by decide, by decide⟩
  obtain ⟨a, ha, -, -, ka⟩ := seriesNew_ok hf F.arith [⟨0, 0⟩, ⟨403658538, 375290590⟩] false (ix := 1) (dflt := 2) (ixspread := 16) (by norm_num) (by decide)
  obtain ⟨b, hb, -, -, kb⟩ := seriesNew_ok hf F.arith [⟨201829269, 187645295⟩, ⟨201829269, -80790161⟩, ⟨201829268, -80790161⟩, ⟨201829267, -80790161⟩] false
    (ix := 1) (dflt := 2) (ixspread := 16) (by norm_num) (by decide)
  obtain ⟨b', hb', -, -, kb'⟩ := seriesNew_ok hf F.arith [⟨201829269, 187645295⟩, ⟨201829269, -80790161⟩, ⟨201829268, -80790161⟩, ⟨201829267, -80790161⟩] false
    (ix := 2) (dflt := 2) (ixspread := 2) (by norm_num) (by decide)
  have nm : ∀ q : ℚ, q = 0 ∨ 1 ≤ |q| ∧ |q| ≤ 2 ^ 30 → Float32.Normal q := fun q h => by
    rcases h with h | ⟨h1, h2⟩
    · exact .inl h
    · refine .inr ⟨le_trans ?_ h1, h2.trans ?_⟩
      · rw [zpow_neg]
        exact inv_le_one_of_one_le₀ (one_le_zpow₀ (by norm_num) (by norm_num))
      · rw [← zpow_natCast]
        exact zpow_le_zpow_right₀ (by norm_num) (by norm_num)
  have ta : (F.ix32 r).Tight (segments ([⟨0, 0⟩, ⟨403658538, 375290590⟩] : List (Pt ℚ)) false) := by
    refine (Float32.ix32_fits hr hF).tight fun s hs => ?_
    simp [segments, edges] at hs
    subst hs
    refine ⟨⟨nm _ ?_, nm _ ?_⟩, ⟨nm _ ?_, nm _ ?_⟩⟩ <;> norm_num
  have tb : (F.ix32 r).Tight (segments ([⟨201829269, 187645295⟩, ⟨201829269, -80790161⟩, ⟨201829268, -80790161⟩, ⟨201829267, -80790161⟩] : List (Pt ℚ)) false) := by
    refine (Float32.ix32_fits hr hF).tight fun s hs => ?_
    simp [segments, edges] at hs
    rcases hs with rfl | rfl | rfl <;> refine ⟨⟨nm _ ?_, nm _ ?_⟩, ⟨nm _ ?_, nm _ ?_⟩⟩ <;> norm_num
  have ia : a.index = none := by
    rw [← Option.not_isSome_iff_eq_none, ka]; decide
  have ib : b.index = none := by
    rw [← Option.not_isSome_iff_eq_none, kb]; decide
  have ib' : b'.index ≠ none := by
    rw [← Option.isSome_iff_ne_none, kb']; decide
  have ea : newIx (F.ix32 r) F.arith .initial [⟨0, 0⟩, ⟨403658538, 375290590⟩] false 1#32 = some a := ha
  have eb : newIx (F.ix32 r) F.arith .initial [⟨201829269, 187645295⟩, ⟨201829269, -80790161⟩, ⟨201829268, -80790161⟩, ⟨201829267, -80790161⟩] false 1#32 = some b := hb
  have eb' : newIx (F.ix32 r) F.arith .initial [⟨201829269, 187645295⟩, ⟨201829269, -80790161⟩, ⟨201829268, -80790161⟩, ⟨201829267, -80790161⟩] false
    (indexWithSpread 2#32 2) = some b' := hb'
  refine ⟨a, b, b', ea, eb, eb', ?_, ?_, ?_⟩
  · obtain ⟨l, h1, h2⟩ := C23_pairs_any_partial.{0} hf ho ho ea eb (.inl (by decide)) (.inl (by decide)) ta tb
    unfold lineXLine
    rw [h2]
    have : l = [] := by
      have : l.Perm [] := by
        refine h1.trans (List.Perm.of_eq ?_)
        rw [List.filter_eq_nil_iff]
        intro x hx
        obtain ⟨x, y⟩ := x
        rw [List.pair_mem_product] at hx
        rw [if_neg (by rw [ib]; simp), Bool.not_eq_true]
        simp only [segments, edges, Bool.not_false, if_true, List.zipIdx_cons, List.zipIdx_nil, List.mem_cons, List.not_mem_nil, or_false] at hx
        obtain ⟨rfl, rfl | rfl | rfl⟩ := hx
        · exact (C23_order_ieee hF).1
        · norm_num [segIntersects, Seg.rect, Rect.intersects]
        · norm_num [segIntersects, Seg.rect, Rect.intersects]
      simpa using this
    rw [this]
    rfl
  · obtain ⟨l, h1, h2⟩ := C23_pairs_any_partial.{0} hf ho ho ea eb' (.inl (by decide)) (.inl (by decide)) ta tb
    unfold lineXLine
    rw [h2]
    have hm : ((⟨⟨0, 0⟩, ⟨403658538, 375290590⟩⟩, 0), (⟨⟨201829269, 187645295⟩, ⟨201829269, -80790161⟩⟩, 0)) ∈ l := by
      rw [h1.mem_iff, List.mem_filter, if_pos ⟨ia, ib'⟩]
      refine ⟨?_, (C23_order_ieee hF).2⟩
      simp [segments, edges]
    cases l with
    | nil => simp at hm
    | cons x l => rfl
  · obtain ⟨l, h1, h2⟩ := C23_pairs_any_partial.{0} hf ho ho eb ea (.inl (by decide)) (.inl (by decide)) tb ta
    unfold lineXLine
    rw [h2]
    have hm : ((⟨⟨201829269, 187645295⟩, ⟨201829269, -80790161⟩⟩, 0), (⟨⟨0, 0⟩, ⟨403658538, 375290590⟩⟩, 0)) ∈ l := by
      rw [h1.mem_iff, List.mem_filter, if_neg (by rw [ia]; simp)]
      refine ⟨?_, (C23_order_ieee hF).2⟩
      simp [segments, edges]
    cases l with
    | nil => simp at hm
    | cons x l => rfl

end

end Tg
