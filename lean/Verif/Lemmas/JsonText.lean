import Verif.Lemmas.JsonGrammar
/-!
Numbers, values and texts of the JSON validator.
-/
namespace Tg.Json
open Spec.Json

/-! ### numbers -/

/-- The head of the list, if any, is not a digit. -/
def NoDigit (l : List Byte) : Prop := ∀ b t, l = b :: t → isDigit b = false

theorem skipDigits_spec (l) : ∃ ds, l = ds ++ skipDigits l ∧ (∀ b ∈ ds, Digit b) ∧ NoDigit (skipDigits l) := by
  induction l with
  | nil => exact ⟨[], by simp [skipDigits, NoDigit]⟩
  | cons b t ih =>
    rw [skipDigits]
    split
    · rename_i hb
      obtain ⟨ds, h1, h2, h3⟩ := ih
      refine ⟨b :: ds, by rw [List.cons_append, ← h1], ?_, h3⟩
      intro c hc
      rcases List.mem_cons.1 hc with rfl | hc
      · exact (isDigit_iff _).1 hb
      · exact h2 c hc
    · rename_i hb
      refine ⟨[], rfl, by simp, ?_⟩
      rintro c t' ⟨⟩
      simpa using hb

theorem skipDigits_app {ds k} (h : ∀ b ∈ ds, Digit b) (hk : NoDigit k) : skipDigits (ds ++ k) = k := by
  induction ds with
  | nil =>
    cases k with
    | nil => rfl
    | cons b t => rw [List.nil_append, skipDigits, hk b t rfl]; simp
  | cons b ds ih =>
    rw [List.cons_append, skipDigits, if_pos ((isDigit_iff b).2 (h b (by simp)))]
    exact ih (fun c hc => h c (List.mem_cons_of_mem _ hc))

theorem follow_facts {b : Byte} {t} (h : Follow (b :: t)) :
    isDigit b = false ∧ (b == 0x2E) = false ∧ (b == 0x65 || b == 0x45) = false := by
  simp only [Follow, isWs_iff] at h
  revert h; clear * -; revert b; decide

theorem vexp_sound {l k} (h : vexp l = .pos k) : ∃ e, l = e ++ k ∧ IsExp e := by
  unfold vexp at h
  split at h
  · cases h; exact ⟨[], rfl, .inl rfl⟩
  · rename_i b t
    split at h
    · rename_i hb
      have hb : b = 0x65 ∨ b = 0x45 := by simpa using hb
      split at h
      · cases h
      · rename_i s t'
        dsimp only at h
        split at h
        · cases h
        · rename_i d t2 hl2
          split at h
          · rename_i hd
            cases h
            obtain ⟨ds, h1, h2, _⟩ := skipDigits_spec t2
            split at hl2
            · rename_i hs
              have hs : s = 0x2B ∨ s = 0x2D := by simpa using hs
              subst hl2
              refine ⟨b :: s :: d :: ds, by simp [← h1], .inr ⟨b, [s], d, ds, rfl, hb, ?_, (isDigit_iff d).1 hd, h2⟩⟩
              rcases hs with rfl | rfl <;> simp
            · cases hl2
              exact ⟨b :: s :: ds, by simp [← h1], .inr ⟨b, [], s, ds, rfl, hb, .inl rfl, (isDigit_iff _).1 hd, h2⟩⟩
          · cases h
    · cases h; exact ⟨[], rfl, .inl rfl⟩

theorem follow_noDigit {k} (h : Follow k) : NoDigit k := by
  rintro b t rfl; exact (follow_facts h).1

theorem vexp_complete {e k} (he : IsExp e) (hk : Follow k) : vexp (e ++ k) = .pos k := by
  rcases he with rfl | ⟨c, s, d, ds, rfl, hc, hs, hd, hds⟩
  · cases k with
    | nil => rfl
    | cons b t => simp only [List.nil_append, vexp, (follow_facts hk).2.2, Bool.false_eq_true, if_false]
  · have hc : (c == 0x65 || c == 0x45) = true := by simpa using hc
    have hd' := (isDigit_iff d).2 hd
    have hsk := skipDigits_app (k := k) hds (follow_noDigit hk)
    have hdn : (d == 0x2B || d == 0x2D) = false := by
      revert hd'; clear * -; revert d; decide
    rcases hs with rfl | rfl | rfl
    · simp only [List.cons_append, List.nil_append, vexp, hc, if_true, hdn, Bool.false_eq_true, if_false, hd', hsk]
    · simp only [List.cons_append, List.nil_append, vexp, hc, if_true]
      simp [hd', hsk]
    · simp only [List.cons_append, List.nil_append, vexp, hc, if_true]
      simp [hd', hsk]

theorem vfrac_sound {l k} (h : vfrac l = .pos k) : ∃ f e, l = f ++ (e ++ k) ∧ IsFrac f ∧ IsExp e := by
  unfold vfrac at h
  split at h
  · cases h; exact ⟨[], [], rfl, .inl rfl, .inl rfl⟩
  · rename_i b t
    split at h
    · rename_i hb
      have hb : b = 0x2E := by simpa using hb
      split at h
      · cases h
      · rename_i d t2
        split at h
        · rename_i hd
          obtain ⟨ds, h1, h2, _⟩ := skipDigits_spec t2
          obtain ⟨e, h3, he⟩ := vexp_sound h
          exact ⟨b :: d :: ds, e, by simp [← h3, ← h1], .inr ⟨d, ds, by rw [hb], (isDigit_iff d).1 hd, h2⟩, he⟩
        · cases h
    · obtain ⟨e, h3, he⟩ := vexp_sound h
      exact ⟨[], e, h3, .inl rfl, he⟩

theorem isExp_head {e k} (he : IsExp e) (hk : Follow k) : NoDigit (e ++ k) ∧
    ∀ b t, e ++ k = b :: t → (b == 0x2E) = false := by
  rcases he with rfl | ⟨c, s, d, ds, rfl, hc, hs, hd, hds⟩
  · exact ⟨follow_noDigit hk, by rintro b t rfl; exact (follow_facts hk).2.1⟩
  · refine ⟨?_, ?_⟩ <;>
    · rintro b t h
      cases h
      rcases hc with rfl | rfl <;> decide

theorem vfrac_complete {f e k} (hf : IsFrac f) (he : IsExp e) (hk : Follow k) : vfrac (f ++ (e ++ k)) = .pos k := by
  obtain ⟨h1, h2⟩ := isExp_head he hk
  have h3 := vexp_complete he hk
  rcases hf with rfl | ⟨d, ds, rfl, hd, hds⟩
  · rw [List.nil_append]
    cases hl : e ++ k with
    | nil => rw [hl] at h3; simpa [vfrac, vexp] using h3
    | cons b t => rw [hl] at h3; simp only [vfrac, h2 b t hl, Bool.false_eq_true, if_false, h3]
  · simp [vfrac, (isDigit_iff d).2 hd, skipDigits_app hds h1, h3]

theorem isFrac_head {f e k} (hf : IsFrac f) (he : IsExp e) (hk : Follow k) : NoDigit (f ++ (e ++ k)) := by
  rcases hf with rfl | ⟨d, ds, rfl, hd, hds⟩
  · exact (isExp_head he hk).1
  · rintro b t h; cases h; decide

theorem vint_sound {b : Byte} {t k} (hb : isDigit b = true) (h : vint (b :: t) = .pos k) :
    ∃ i f e, b :: t = i ++ (f ++ (e ++ k)) ∧ IsInt i ∧ IsFrac f ∧ IsExp e := by
  unfold vint at h
  dsimp only at h
  split at h
  · rename_i h0
    obtain ⟨f, e, rfl, hf, he⟩ := vfrac_sound h
    exact ⟨[b], f, e, rfl, .inl (by rw [show b = 0x30 by simpa using h0]), hf, he⟩
  · rename_i h0
    rw [skipDigits, if_pos hb] at h
    obtain ⟨ds, h1, h2, _⟩ := skipDigits_spec t
    obtain ⟨f, e, h3, hf, he⟩ := vfrac_sound h
    exact ⟨b :: ds, f, e, by simp [← h3, ← h1], .inr ⟨b, ds, rfl, (isDigit_iff b).1 hb, by simpa using h0, h2⟩, hf, he⟩

theorem vint_complete {i f e k} (hi : IsInt i) (hf : IsFrac f) (he : IsExp e) (hk : Follow k) :
    vint (i ++ (f ++ (e ++ k))) = .pos k ∧ ∃ b t, i = b :: t ∧ isDigit b = true := by
  have h3 := vfrac_complete hf he hk
  rcases hi with rfl | ⟨d, ds, rfl, hd, h0, hds⟩
  · exact ⟨by simp [vint, h3], _, _, rfl, by decide⟩
  · refine ⟨?_, _, _, rfl, (isDigit_iff d).2 hd⟩
    have := skipDigits_app (ds := d :: ds) (k := f ++ (e ++ k)) (by simpa [hd] using hds) (isFrac_head hf he hk)
    unfold vint
    rw [List.cons_append]
    dsimp only
    rw [if_neg (by simpa using h0), ← List.cons_append, this, h3]

theorem vnumber_sound {b : Byte} {t k} (hb : (b == 0x2D || isDigit b) = true) (h : vnumber (b :: t) = .pos k) :
    ∃ l, b :: t = l ++ k ∧ IsNumber l := by
  unfold vnumber at h
  dsimp only at h
  split at h
  · rename_i hm
    cases t with
    | nil => cases h
    | cons d t =>
      dsimp only at h
      split at h
      · rename_i hd
        obtain ⟨i, f, e, h1, hi, hf, he⟩ := vint_sound hd h
        refine ⟨[b] ++ (i ++ (f ++ e)), by simp [h1], [b], i, f, e, rfl, .inr ?_, hi, hf, he⟩
        rw [show b = 0x2D by simpa using hm]
      · cases h
  · rename_i hm
    simp only [Bool.or_eq_true] at hb
    obtain ⟨i, f, e, h1, hi, hf, he⟩ := vint_sound (hb.resolve_left hm) h
    exact ⟨i ++ (f ++ e), by simp [h1], [], i, f, e, rfl, .inl rfl, hi, hf, he⟩

theorem vnumber_complete {l k} (hl : IsNumber l) (hk : Follow k) :
    vnumber (l ++ k) = .pos k ∧ ∃ b t, l = b :: t ∧ (b == 0x2D || isDigit b) = true := by
  obtain ⟨s, i, f, e, rfl, hs, hi, hf, he⟩ := hl
  obtain ⟨h1, b, t, rfl, hb⟩ := vint_complete hi hf he hk
  rcases hs with rfl | rfl
  · refine ⟨?_, _, _, rfl, by simp [hb]⟩
    have hnm : (b == 0x2D) = false := by revert hb; clear * -; revert b; decide
    simp only [List.nil_append, List.cons_append, List.append_assoc] at h1 ⊢
    unfold vnumber
    dsimp only
    rw [hnm]
    exact h1
  · refine ⟨?_, _, _, rfl, by decide⟩
    simp only [List.nil_append, List.cons_append, List.append_assoc] at h1 ⊢
    unfold vnumber
    dsimp only
    rw [if_pos (by decide), if_pos hb]
    exact h1

/-! ### soundness of values -/

theorem vcolon_sound {l k} (h : vcolon l = .pos k) : ∃ w, l = w ++ 0x3A :: k ∧ Ws w := by
  induction l with
  | nil => cases h
  | cons b t ih =>
    rw [vcolon] at h
    split at h
    · rename_i hb; cases h; exact ⟨[], by rw [show b = 0x3A by simpa using hb]; rfl, ws_nil⟩
    · split at h
      · rename_i hw
        obtain ⟨w, rfl, h2⟩ := ih h
        exact ⟨b :: w, rfl, ws_cons hw h2⟩
      · cases h

theorem vcomma_sound {e : Byte} {l k} (h : vcomma e l = .pos k) :
    ∃ w c t, l = w ++ k ∧ Ws w ∧ k = c :: t ∧ (c = 0x2C ∨ c = e) := by
  induction l with
  | nil => cases h
  | cons b t ih =>
    rw [vcomma] at h
    split at h
    · rename_i hb; cases h; exact ⟨[], b, t, rfl, ws_nil, rfl, .inl (by simpa using hb)⟩
    · split at h
      · rename_i hw
        obtain ⟨w, c, t', rfl, h2, h3⟩ := ih h
        exact ⟨b :: w, c, t', rfl, ws_cons hw h2, h3⟩
      · split at h
        · rename_i he; cases h; exact ⟨[], b, t, rfl, ws_nil, rfl, .inr (by simpa using he)⟩
        · cases h

theorem nextKey_sound {l k} (h : nextKey l = .pos k) : ∃ w, l = w ++ 0x22 :: k ∧ Ws w := by
  induction l with
  | nil => cases h
  | cons b t ih =>
    rw [nextKey] at h
    split at h
    · rename_i hw
      obtain ⟨w, rfl, h2⟩ := ih h
      exact ⟨b :: w, rfl, ws_cons hw h2⟩
    · split at h
      · rename_i hb; cases h; exact ⟨[], by rw [show b = 0x22 by simpa using hb]; rfl, ws_nil⟩
      · cases h

/-- `child` recognises values of at most `r` levels, skipping white space first. -/
def Sound (child : List Byte → V) (r : Nat) : Prop :=
  ∀ l k, child l = .pos k → ∃ w v, l = w ++ (v ++ k) ∧ Ws w ∧ Val TgStr r v

theorem arrLoop_sound {child r} (hc : Sound child r) (n) : ∀ l k, arrLoop child n l = .pos k →
    ∃ es, l = es ++ 0x5D :: k ∧ Elems TgStr r es := by
  induction n with
  | zero => intro l k h; cases h
  | succ n ih =>
    intro l k h
    cases l with
    | nil => cases h
    | cons b t =>
      rw [arrLoop] at h
      split at h
      · cases h
      · cases h
      · rename_i l1 h1
        obtain ⟨w, v, e1, hw, hv⟩ := hc _ _ h1
        rw [e1]
        split at h
        · cases h
        · cases h
        · cases h
        · rename_i c t' h2
          obtain ⟨w', c', t'', e2, hw', e3, hcc⟩ := vcomma_sound h2
          cases e3
          rw [e2]
          split at h
          · rename_i hcl
            cases h
            refine ⟨w ++ (v ++ w'), ?_, .one _ _ _ _ hw hv hw'⟩
            rw [show c = 0x5D by simpa using hcl]; simp
          · rename_i hcl
            obtain ⟨es, e4, he⟩ := ih _ _ h
            refine ⟨w ++ (v ++ (w' ++ 0x2C :: es)), ?_, .cons _ _ _ _ _ hw hv hw' he⟩
            have : c = 0x2C := hcc.resolve_right (by simpa using hcl)
            rw [this, e4]; simp

theorem varray_sound {child r} (hc : Sound child r) : ∀ l k, varray child l = .pos k →
    ∃ v, 0x5B :: l = v ++ k ∧ Val TgStr (r + 1) v := by
  have key : ∀ l k, varray child l = .pos k → ∃ w, Ws w ∧
      ((l = w ++ 0x5D :: k) ∨ ∃ es, l = w ++ (es ++ 0x5D :: k) ∧ Elems TgStr r es) := by
    intro l
    induction l with
    | nil => intro k h; cases h
    | cons b t ih =>
      intro k h
      rw [varray] at h
      split at h
      · rename_i hw
        obtain ⟨w, h1, h2⟩ := ih k h
        refine ⟨b :: w, ws_cons hw h1, ?_⟩
        rcases h2 with rfl | ⟨es, rfl, he⟩
        · exact .inl rfl
        · exact .inr ⟨es, rfl, he⟩
      · split at h
        · rename_i hb
          cases h
          exact ⟨[], ws_nil, .inl (by rw [show b = 0x5D by simpa using hb]; rfl)⟩
        · obtain ⟨es, h1, h2⟩ := arrLoop_sound hc _ _ _ h
          exact ⟨[], ws_nil, .inr ⟨es, h1, h2⟩⟩
  intro l k h
  obtain ⟨w, hw, rfl | ⟨es, rfl, he⟩⟩ := key l k h
  · exact ⟨0x5B :: (w ++ [0x5D]), by simp, .arr0 _ _ hw⟩
  · refine ⟨0x5B :: ((w ++ es) ++ [0x5D]), by simp, .arr _ _ ?_⟩
    have cat : ∀ {w w' : List Byte}, Ws w → Ws w' → Ws (w ++ w') := by
      intro w w' h h' b hb
      rcases List.mem_append.1 hb with h1 | h1
      · exact h b h1
      · exact h' b h1
    cases he with
    | one _ w2 v w' a b c => rw [← List.append_assoc]; exact .one _ _ _ _ (cat hw a) b c
    | cons _ w2 v w' l a b c d => rw [← List.append_assoc]; exact .cons _ _ _ _ _ (cat hw a) b c d

theorem objLoop_sound {child r} (hc : Sound child r) (n) : ∀ l k, objLoop child n l = .pos k →
    ∃ ms, 0x22 :: l = ms ++ 0x7D :: k ∧ Mems TgStr r ms ∧ ∀ w, Ws w → Mems TgStr r (w ++ ms) := by
  induction n with
  | zero => intro l k h; cases h
  | succ n ih =>
    intro l k h
    rw [objLoop] at h
    split at h
    · cases h
    · cases h
    · rename_i l1 h1
      rw [vkey_eq] at h1
      obtain ⟨s, e1, hs⟩ := vstring_sound h1
      rw [e1]
      split at h
      · cases h
      · cases h
      · rename_i l2 h2
        obtain ⟨w1, rfl, hw1⟩ := vcolon_sound h2
        split at h
        · cases h
        · cases h
        · rename_i l3 h3
          obtain ⟨w2, v, rfl, hw2, hv⟩ := hc _ _ h3
          split at h
          · cases h
          · cases h
          · cases h
          · rename_i c t' h4
            obtain ⟨w3, c', t'', rfl, hw3, e3, hcc⟩ := vcomma_sound h4
            cases e3
            split at h
            · rename_i hcl
              cases h
              have hcl : c = 0x7D := by simpa using hcl
              refine ⟨s ++ (w1 ++ 0x3A :: (w2 ++ (v ++ w3))), ?_, ?_, fun w hw => ?_⟩
              · rw [hcl]; simp
              · exact .one _ [] _ _ _ _ _ ws_nil hs hw1 hw2 hv hw3
              · exact .one _ w _ _ _ _ _ hw hs hw1 hw2 hv hw3
            · rename_i hcl
              have hcl : c = 0x2C := hcc.resolve_right (by simpa using hcl)
              split at h
              · cases h
              · cases h
              · rename_i l5 h5
                obtain ⟨w4, rfl, hw4⟩ := nextKey_sound h5
                obtain ⟨ms, e5, hm, hm'⟩ := ih _ _ h
                refine ⟨s ++ (w1 ++ 0x3A :: (w2 ++ (v ++ (w3 ++ 0x2C :: (w4 ++ ms))))), ?_, ?_, fun w hw => ?_⟩
                · rw [hcl, e5]; simp
                · exact .cons _ [] _ _ _ _ _ _ ws_nil hs hw1 hw2 hv hw3 (hm' w4 hw4)
                · exact .cons _ w _ _ _ _ _ _ hw hs hw1 hw2 hv hw3 (hm' w4 hw4)

theorem vobject_sound {child r} (hc : Sound child r) : ∀ l k, vobject child l = .pos k →
    ∃ v, 0x7B :: l = v ++ k ∧ Val TgStr (r + 1) v := by
  have key : ∀ l k, vobject child l = .pos k → ∃ w, Ws w ∧
      ((l = w ++ 0x7D :: k) ∨ ∃ ms, l = w ++ (ms ++ 0x7D :: k) ∧ ∀ w, Ws w → Mems TgStr r (w ++ ms)) := by
    intro l
    induction l with
    | nil => intro k h; cases h
    | cons b t ih =>
      intro k h
      rw [vobject] at h
      split at h
      · rename_i hb
        obtain ⟨ms, h1, _, h2⟩ := objLoop_sound hc _ _ _ h
        exact ⟨[], ws_nil, .inr ⟨ms, by rw [show b = 0x22 by simpa using hb, h1]; rfl, h2⟩⟩
      · split at h
        · rename_i hw
          obtain ⟨w, h1, h2⟩ := ih k h
          refine ⟨b :: w, ws_cons hw h1, ?_⟩
          rcases h2 with rfl | ⟨es, rfl, he⟩
          · exact .inl rfl
          · exact .inr ⟨es, rfl, he⟩
        · split at h
          · rename_i hb
            cases h
            exact ⟨[], ws_nil, .inl (by rw [show b = 0x7D by simpa using hb]; rfl)⟩
          · cases h
  intro l k h
  obtain ⟨w, hw, rfl | ⟨es, rfl, he⟩⟩ := key l k h
  · exact ⟨0x7B :: (w ++ [0x7D]), by simp, .obj0 _ _ hw⟩
  · exact ⟨0x7B :: ((w ++ es) ++ [0x7D]), by simp, .obj _ _ (he w hw)⟩

theorem vlit_sound {w l k} (h : vlit w l = .pos k) : l = w ++ k := by
  unfold vlit at h
  split at h
  · rename_i hp
    cases h
    obtain ⟨t, rfl⟩ := List.isPrefixOf_iff_prefix.1 hp
    simp
  · cases h

theorem vanyBody_sound {child r} (hc : Sound child r) : Sound (vanyBody child) (r + 1) := by
  intro l
  induction l with
  | nil => intro k h; cases h
  | cons b t ih =>
    intro k h
    rw [vanyBody] at h
    split at h
    · rename_i hw
      obtain ⟨w, v, rfl, h1, h2⟩ := ih k h
      exact ⟨b :: w, v, rfl, ws_cons hw h1, h2⟩
    · split at h
      · rename_i hb
        obtain ⟨v, h1, h2⟩ := vobject_sound hc _ _ h
        exact ⟨[], v, by rw [show b = 0x7B by simpa using hb, h1]; rfl, ws_nil, h2⟩
      · split at h
        · rename_i hb
          obtain ⟨v, h1, h2⟩ := varray_sound hc _ _ h
          exact ⟨[], v, by rw [show b = 0x5B by simpa using hb, h1]; rfl, ws_nil, h2⟩
        · split at h
          · rename_i hb
            obtain ⟨s, h1, h2⟩ := vstring_sound h
            exact ⟨[], s, by rw [show b = 0x22 by simpa using hb, h1]; rfl, ws_nil, .str _ _ h2⟩
          · split at h
            · rename_i hb
              exact ⟨[], _, by rw [show b = 0x74 by simpa using hb, vlit_sound h]; rfl, ws_nil, .true_ _⟩
            · split at h
              · rename_i hb
                exact ⟨[], _, by rw [show b = 0x66 by simpa using hb, vlit_sound h]; rfl, ws_nil, .false_ _⟩
              · split at h
                · rename_i hb
                  exact ⟨[], _, by rw [show b = 0x6E by simpa using hb, vlit_sound h]; rfl, ws_nil, .null _⟩
                · split at h
                  · rename_i hb
                    obtain ⟨v, h1, h2⟩ := vnumber_sound hb h
                    exact ⟨[], v, h1, ws_nil, .num _ _ h2⟩
                  · cases h

theorem vany_sound (r) : Sound (vany r) r := by
  induction r with
  | zero => intro l k h; cases h
  | succ r ih => exact vanyBody_sound ih

theorem vtail_sound {l k} (h : vtail l = .pos k) : k = [] ∧ Ws l := by
  induction l with
  | nil => cases h; exact ⟨rfl, ws_nil⟩
  | cons b t ih =>
    rw [vtail] at h
    split at h
    · rename_i hw; exact ⟨(ih h).1, ws_cons hw (ih h).2⟩
    · cases h

theorem vpayload_sound {l k} (h : vpayload l = .pos k) : Text TgStr l := by
  induction l with
  | nil => cases h
  | cons b t ih =>
    rw [vpayload] at h
    split at h
    · rename_i hw
      obtain ⟨w, v, w', h1, h2, h3, rfl⟩ := ih h
      exact ⟨b :: w, v, w', ws_cons hw h1, h2, h3, rfl⟩
    · split at h
      · cases h
      · cases h
      · rename_i l1 h1
        obtain ⟨w, v, e, hw, hv⟩ := vany_sound _ _ _ h1
        exact ⟨w, v, l1, hw, hv, (vtail_sound h).2, e⟩

/-! ### completeness of values -/

theorem vcolon_complete {w k} (hw : Ws w) : vcolon (w ++ 0x3A :: k) = .pos k := by
  induction w with
  | nil => simp [vcolon]
  | cons b w ih =>
    obtain ⟨h1, h2⟩ := ws_cons_iff.1 hw
    rw [List.cons_append, vcolon]
    split
    · rename_i hb; rw [show b = 0x3A by simpa using hb] at h1; simp [isWs] at h1
    · exact ih h2

theorem vcomma_complete {e : Byte} {w c k} (hw : Ws w) (hc : c = 0x2C ∨ c = e) (he : isWs c = false) :
    vcomma e (w ++ c :: k) = .pos (c :: k) := by
  induction w with
  | nil =>
    rw [List.nil_append, vcomma]
    split
    · rfl
    · rename_i h
      rw [he]
      simp [hc.resolve_left (by simpa using h)]
  | cons b w ih =>
    obtain ⟨h1, h2⟩ := ws_cons_iff.1 hw
    rw [List.cons_append, vcomma]
    split
    · rename_i hb; rw [show b = 0x2C by simpa using hb] at h1; simp [isWs] at h1
    · exact ih h2

theorem nextKey_complete {w k} (hw : Ws w) : nextKey (w ++ 0x22 :: k) = .pos k := by
  induction w with
  | nil => simp [nextKey, isWs]
  | cons b w ih =>
    obtain ⟨h1, h2⟩ := ws_cons_iff.1 hw
    rw [List.cons_append, nextKey, if_pos h1, ih h2]

/-- A value starts with a byte that is neither white space nor a closing bracket. -/
theorem val_head {r v} (h : Val TgStr r v) : ∃ b t, v = b :: t ∧ isWs b = false ∧ (b == 0x5D) = false := by
  cases h with
  | null => exact ⟨_, _, rfl, by decide, by decide⟩
  | true_ => exact ⟨_, _, rfl, by decide, by decide⟩
  | false_ => exact ⟨_, _, rfl, by decide, by decide⟩
  | num _ l h =>
    obtain ⟨_, b, t, rfl, hb⟩ := vnumber_complete h (k := []) trivial
    refine ⟨b, t, rfl, ?_⟩
    revert hb; clear * -; revert b; decide
  | str _ l h =>
    obtain ⟨cs, e, _, _, rfl⟩ := h
    exact ⟨_, _, rfl, by decide, by decide⟩
  | arr0 => exact ⟨_, _, rfl, by decide, by decide⟩
  | arr => exact ⟨_, _, rfl, by decide, by decide⟩
  | obj0 => exact ⟨_, _, rfl, by decide, by decide⟩
  | obj => exact ⟨_, _, rfl, by decide, by decide⟩

theorem vanyBody_ws {child w l} (hw : Ws w) : vanyBody child (w ++ l) = vanyBody child l := by
  induction w with
  | nil => rfl
  | cons b w ih =>
    obtain ⟨h1, h2⟩ := ws_cons_iff.1 hw
    rw [List.cons_append, vanyBody, if_pos h1, ih h2]

theorem varray_ws {child w l} (hw : Ws w) : varray child (w ++ l) = varray child l := by
  induction w with
  | nil => rfl
  | cons b w ih =>
    obtain ⟨h1, h2⟩ := ws_cons_iff.1 hw
    rw [List.cons_append, varray, if_pos h1, ih h2]

theorem vobject_ws {child w l} (hw : Ws w) : vobject child (w ++ l) = vobject child l := by
  induction w with
  | nil => rfl
  | cons b w ih =>
    obtain ⟨h1, h2⟩ := ws_cons_iff.1 hw
    have : (b == 0x22) = false := by revert h1; clear * -; revert b; decide
    rw [List.cons_append, vobject, this, if_neg (by simp), if_pos h1, ih h2]

/-- `child` accepts every value of at most `r` levels, if a suitable byte follows. -/
def Compl (child : List Byte → V) (v : List Byte) : Prop :=
  ∀ w k, Ws w → Follow k → child (w ++ (v ++ k)) = .pos k

theorem follow_close (k) : Follow (0x5D :: k) := by simp [Follow]
theorem follow_brace (k) : Follow (0x7D :: k) := by simp [Follow]
theorem follow_comma (k) : Follow (0x2C :: k) := by simp [Follow]
theorem follow_colon (k) : Follow (0x3A :: k) := by simp [Follow]

mutual
theorem val_complete : ∀ {r v}, Val TgStr r v → Compl (vany r) v
  | _, _, .null r => by intro w k hw hk; rw [vany, vanyBody_ws hw]; simp [vanyBody, isWs, vlit]
  | _, _, .true_ r => by intro w k hw hk; rw [vany, vanyBody_ws hw]; simp [vanyBody, isWs, vlit]
  | _, _, .false_ r => by intro w k hw hk; rw [vany, vanyBody_ws hw]; simp [vanyBody, isWs, vlit]
  | _, _, .num r l h => by
    intro w k hw hk
    rw [vany, vanyBody_ws hw]
    obtain ⟨h1, b, t, rfl, hb⟩ := vnumber_complete h hk
    have : isWs b = false ∧ (b == 0x7B) = false ∧ (b == 0x5B) = false ∧ (b == 0x22) = false ∧ (b == 0x74) = false ∧
      (b == 0x66) = false ∧ (b == 0x6E) = false := by revert hb; clear * -; revert b; decide
    obtain ⟨a1, a2, a3, a4, a5, a6, a7⟩ := this
    rw [List.cons_append, vanyBody]
    simp only [a1, a2, a3, a4, a5, a6, a7, hb, Bool.false_eq_true, if_false, if_true]
    exact h1
  | _, _, .str r l h => by
    intro w k hw hk
    rw [vany, vanyBody_ws hw]
    obtain ⟨cs, e, hc, he, rfl⟩ := h
    have := vstring_complete hc he hk
    simp [vanyBody, isWs, this]
  | _, _, .arr0 r w' h => by
    intro w k hw hk
    rw [vany, vanyBody_ws hw]
    have : varray (vany r) (w' ++ 0x5D :: k) = .pos k := by rw [varray_ws h]; simp [varray, isWs]
    simp [vanyBody, isWs]
    exact this
  | _, _, .arr r l h => by
    intro w k hw hk
    rw [vany, vanyBody_ws hw]
    have : varray (vany r) (l ++ 0x5D :: k) = .pos k := elems_complete h k
    simp [vanyBody, isWs]
    exact this
  | _, _, .obj0 r w' h => by
    intro w k hw hk
    rw [vany, vanyBody_ws hw]
    have : vobject (vany r) (w' ++ 0x7D :: k) = .pos k := by rw [vobject_ws h]; simp [vobject, isWs]
    simp [vanyBody, isWs]
    exact this
  | _, _, .obj r l h => by
    intro w k hw hk
    rw [vany, vanyBody_ws hw]
    have : vobject (vany r) (l ++ 0x7D :: k) = .pos k := by
      obtain ⟨w0, l', rfl, hw0, hl⟩ := mems_complete h k
      rw [List.append_assoc, vobject_ws hw0, List.cons_append, vobject, if_pos (by decide)]
      exact hl _ (by simp; omega)
    simp [vanyBody, isWs]
    exact this

theorem elems_loop : ∀ {r l}, Elems TgStr r l → ∀ k n, l.length < n → arrLoop (vany r) n (l ++ 0x5D :: k) = .pos k
  | _, _, .one r w v w' hw hv hw' => by
    intro k n hn
    obtain ⟨n, rfl⟩ : ∃ m, n = m + 1 := ⟨n - 1, by omega⟩
    have h1 := val_complete hv w (w' ++ 0x5D :: k) hw (follow_ws hw' (follow_close _))
    have e : (w ++ (v ++ w')) ++ 0x5D :: k = w ++ (v ++ (w' ++ 0x5D :: k)) := by simp
    rw [e]
    cases hl : w ++ (v ++ (w' ++ 0x5D :: k)) with
    | nil => simp at hl
    | cons b t =>
      rw [arrLoop, ← hl, h1]
      dsimp only
      rw [vcomma_complete hw' (.inr rfl) (by decide)]
      simp
  | _, _, .cons r w v w' l hw hv hw' hl' => by
    intro k n hn
    obtain ⟨n, rfl⟩ : ∃ m, n = m + 1 := ⟨n - 1, by omega⟩
    have h1 := val_complete hv w (w' ++ 0x2C :: (l ++ 0x5D :: k)) hw (follow_ws hw' (follow_comma _))
    have e : (w ++ (v ++ (w' ++ 0x2C :: l))) ++ 0x5D :: k = w ++ (v ++ (w' ++ 0x2C :: (l ++ 0x5D :: k))) := by simp
    rw [e]
    have ih := elems_loop hl' k n (by simp at hn; omega)
    cases hl : w ++ (v ++ (w' ++ 0x2C :: (l ++ 0x5D :: k))) with
    | nil => simp at hl
    | cons b t =>
      rw [arrLoop, ← hl, h1]
      dsimp only
      rw [vcomma_complete hw' (.inl rfl) (by decide)]
      dsimp only
      rw [if_neg (by decide), ih]

theorem elems_complete : ∀ {r l}, Elems TgStr r l → ∀ k, varray (vany r) (l ++ 0x5D :: k) = .pos k
  | _, _, .one r w v w' hw hv hw' => by
    intro k
    have h1 := val_complete hv [] (w' ++ 0x5D :: k) ws_nil (follow_ws hw' (follow_close _))
    rw [List.nil_append] at h1
    have e : (w ++ (v ++ w')) ++ 0x5D :: k = w ++ (v ++ (w' ++ 0x5D :: k)) := by simp
    rw [e, varray_ws hw]
    obtain ⟨b, t, rfl, a1, a2⟩ := val_head hv
    rw [List.cons_append] at h1 ⊢
    rw [varray, a1, a2, if_neg (by simp), if_neg (by simp), arrLoop, h1]
    dsimp only
    rw [vcomma_complete hw' (.inr rfl) (by decide)]
    simp
  | _, _, .cons r w v w' l hw hv hw' hl' => by
    intro k
    have h1 := val_complete hv [] (w' ++ 0x2C :: (l ++ 0x5D :: k)) ws_nil (follow_ws hw' (follow_comma _))
    rw [List.nil_append] at h1
    have e : (w ++ (v ++ (w' ++ 0x2C :: l))) ++ 0x5D :: k = w ++ (v ++ (w' ++ 0x2C :: (l ++ 0x5D :: k))) := by simp
    rw [e, varray_ws hw]
    obtain ⟨b, t, rfl, a1, a2⟩ := val_head hv
    have ih := elems_loop hl' k
    rw [List.cons_append] at h1 ⊢
    rw [varray, a1, a2, if_neg (by simp), if_neg (by simp), arrLoop, h1]
    dsimp only
    rw [vcomma_complete hw' (.inl rfl) (by decide)]
    dsimp only
    rw [if_neg (by decide), ih _ (by simp; omega)]

theorem mems_complete : ∀ {r l}, Mems TgStr r l → ∀ k, ∃ w l', l = w ++ 0x22 :: l' ∧ Ws w ∧
    ∀ n, l'.length < n → objLoop (vany r) n (l' ++ 0x7D :: k) = .pos k
  | _, _, .one r w s w1 w2 v w3 hw hs hw1 hw2 hv hw3 => by
    intro k
    obtain ⟨cs, e, hc, he, rfl⟩ := hs
    refine ⟨w, cs ++ (e ++ (w1 ++ 0x3A :: (w2 ++ (v ++ w3)))), by simp, hw, ?_⟩
    intro n hn
    obtain ⟨n, rfl⟩ : ∃ m, n = m + 1 := ⟨n - 1, by omega⟩
    have h1 := val_complete hv w2 (w3 ++ 0x7D :: k) hw2 (follow_ws hw3 (follow_brace _))
    have hk := vstring_complete (k := w1 ++ 0x3A :: (w2 ++ (v ++ (w3 ++ 0x7D :: k)))) hc he (follow_ws hw1 (follow_colon _))
    have e' : (cs ++ (e ++ (w1 ++ 0x3A :: (w2 ++ (v ++ w3))))) ++ 0x7D :: k =
      cs ++ (e ++ (w1 ++ 0x3A :: (w2 ++ (v ++ (w3 ++ 0x7D :: k))))) := by simp
    rw [e', objLoop, vkey_eq, hk]
    dsimp only
    rw [vcolon_complete hw1]
    dsimp only
    rw [h1]
    dsimp only
    rw [vcomma_complete hw3 (.inr rfl) (by decide)]
    simp
  | _, _, .cons r w s w1 w2 v w3 l hw hs hw1 hw2 hv hw3 hl' => by
    intro k
    obtain ⟨cs, e, hc, he, rfl⟩ := hs
    obtain ⟨w4, l4, rfl, hw4, ih⟩ := mems_complete hl' k
    refine ⟨w, cs ++ (e ++ (w1 ++ 0x3A :: (w2 ++ (v ++ (w3 ++ 0x2C :: (w4 ++ 0x22 :: l4)))))), by simp, hw, ?_⟩
    intro n hn
    obtain ⟨n, rfl⟩ : ∃ m, n = m + 1 := ⟨n - 1, by omega⟩
    have h1 := val_complete hv w2 (w3 ++ 0x2C :: (w4 ++ 0x22 :: (l4 ++ 0x7D :: k))) hw2 (follow_ws hw3 (follow_comma _))
    have hk := vstring_complete (k := w1 ++ 0x3A :: (w2 ++ (v ++ (w3 ++ 0x2C :: (w4 ++ 0x22 :: (l4 ++ 0x7D :: k))))))
      hc he (follow_ws hw1 (follow_colon _))
    have e' : (cs ++ (e ++ (w1 ++ 0x3A :: (w2 ++ (v ++ (w3 ++ 0x2C :: (w4 ++ 0x22 :: l4))))))) ++ 0x7D :: k =
      cs ++ (e ++ (w1 ++ 0x3A :: (w2 ++ (v ++ (w3 ++ 0x2C :: (w4 ++ 0x22 :: (l4 ++ 0x7D :: k))))))) := by simp
    rw [e', objLoop, vkey_eq, hk]
    dsimp only
    rw [vcolon_complete hw1]
    dsimp only
    rw [h1]
    dsimp only
    rw [vcomma_complete hw3 (.inl rfl) (by decide)]
    dsimp only
    rw [if_neg (by decide), nextKey_complete hw4]
    dsimp only
    exact ih n (by simp at hn; omega)
end

theorem vtail_ws {w} (hw : Ws w) : vtail w = .pos [] := by
  induction w with
  | nil => rfl
  | cons b w ih =>
    obtain ⟨h1, h2⟩ := ws_cons_iff.1 hw
    rw [vtail, if_pos h1, ih h2]

theorem vpayload_complete {l} (h : Text TgStr l) : vpayload l = .pos [] := by
  obtain ⟨w, v, w', hw, hv, hw', rfl⟩ := h
  induction w with
  | nil =>
    obtain ⟨b, t, rfl, a1, a2⟩ := val_head hv
    have hf : Follow w' := by simpa using follow_ws (l := []) hw' trivial
    have h1 := val_complete hv [] w' ws_nil hf
    rw [List.nil_append, List.cons_append] at h1
    rw [List.nil_append, List.cons_append, vpayload, a1, if_neg (by simp), h1]
    exact vtail_ws hw'
  | cons b w ih =>
    obtain ⟨h1, h2⟩ := ws_cons_iff.1 hw
    rw [List.cons_append, vpayload, if_pos h1, ih h2]

/-- The validator accepts exactly the texts of the grammar with tg's strings. -/
theorem jsonValidn_iff (d : List Byte) : jsonValidn d = some true ↔ Text TgStr d := by
  unfold jsonValidn
  have ha := vpayload_adv d
  constructor
  · intro h
    cases hr : vpayload d with
    | ub => rw [hr] at h; cases h
    | neg k => rw [hr] at h; cases h
    | pos k => exact vpayload_sound hr
  · intro h
    rw [vpayload_complete h] at ha ⊢
    simpa using ha.2

theorem jsonValidn_total (d : List Byte) : jsonValidn d ≠ none := by
  unfold jsonValidn
  have ha := vpayload_adv d
  cases hr : vpayload d with
  | ub => rw [hr] at ha; exact absurd ha (by simp [Adv])
  | neg k => simp
  | pos k => simp

end Tg.Json
