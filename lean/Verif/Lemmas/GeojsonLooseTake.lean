import Verif.Lemmas.GeojsonLoose
/-! The members that the GeoJSON parser looks at. -/
set_option linter.unusedSectionVars false
namespace Tg.Gp
open Json
open Wp (P Base checkBase dimFlags polyOf showBytes Safe bind_ok safe_ok safe_err)
open Spec.Json (Ws Val Elems Mems Chr Chrs Str Utf8 HexDigit IsNumber)
open Spec.Geojson (Items IsArr Pairs Spells Named Member TypeObj others extraText IsPosn IsSeries IsRings IsPolys IsList hexDigit FirstMember LastMember NamedTo LooseObj Loose AreLoose LooseMembers LooseFeature LooseFeatures ZFirst ZFirsts reread rereads shown)

variable {sd : List Byte → F64 × Nat}

theorem firstMember_cons {m : List Byte × List Byte} {ms : List (List Byte × List Byte)} {s : String} {v : List Byte} :
    FirstMember (m :: ms) s v ↔ (Named m.1 s ∧ v = m.2) ∨ (¬ Named m.1 s ∧ FirstMember ms s v) := by
  constructor
  · rintro ⟨a, k, b, e, hk, hn⟩
    cases a with
    | nil =>
      obtain ⟨rfl, -⟩ := List.cons.inj e
      exact .inl ⟨hk, rfl⟩
    | cons m' a =>
      obtain ⟨rfl, e'⟩ := List.cons.inj e
      exact .inr ⟨hn _ (by simp), a, k, b, e', hk, fun x hx => hn x (by simp [hx])⟩
  · rintro (⟨h, rfl⟩ | ⟨h, a, k, b, rfl, hk, hn⟩)
    · exact ⟨[], m.1, ms, rfl, h, by simp⟩
    · refine ⟨m :: a, k, b, rfl, hk, fun x hx => ?_⟩
      rcases List.mem_cons.1 hx with rfl | hx
      · exact h
      · exact hn x hx

theorem lastMember_cons {m : List Byte × List Byte} {ms : List (List Byte × List Byte)} {s : String} {v : List Byte} :
    LastMember (m :: ms) s v ↔ LastMember ms s v ∨ (Named m.1 s ∧ v = m.2 ∧ ∀ x ∈ ms, ¬ Named x.1 s) := by
  constructor
  · rintro ⟨a, k, b, e, hk, hn⟩
    cases a with
    | nil =>
      obtain ⟨rfl, rfl⟩ := List.cons.inj e
      exact .inr ⟨hk, rfl, hn⟩
    | cons m' a =>
      obtain ⟨rfl, e'⟩ := List.cons.inj e
      exact .inl ⟨a, k, b, e', hk, hn⟩
  · rintro (⟨a, k, b, rfl, hk, hn⟩ | ⟨h, rfl, hn⟩)
    · exact ⟨m :: a, k, b, rfl, hk, hn⟩
    · exact ⟨[], m.1, ms, rfl, h, hn⟩

theorem lastMember_named {ms : List (List Byte × List Byte)} {s : String} {v : List Byte} (h : LastMember ms s v) : ∃ m ∈ ms, Named m.1 s ∧ v = m.2 := by
  obtain ⟨a, k, b, rfl, hk, -⟩ := h
  exact ⟨(k, v), by simp, hk, rfl⟩

theorem firstMember_named {ms : List (List Byte × List Byte)} {s : String} {v : List Byte} (h : FirstMember ms s v) : ∃ m ∈ ms, Named m.1 s ∧ v = m.2 := by
  obtain ⟨a, k, b, rfl, hk, -⟩ := h
  exact ⟨(k, v), by simp, hk, rfl⟩

theorem lastMember_unique {ms : List (List Byte × List Byte)} {s : String} {v v' : List Byte} (h : LastMember ms s v) (h' : LastMember ms s v') : v = v' := by
  induction ms with
  | nil => obtain ⟨a, k, b, e, -⟩ := h; simp at e
  | cons m ms ih =>
    rw [lastMember_cons] at h h'
    rcases h with h | ⟨-, rfl, h⟩
    · rcases h' with h' | ⟨-, rfl, h'⟩
      · exact ih h h'
      · obtain ⟨m', hm, hn, -⟩ := lastMember_named h
        exact absurd hn (h' m' hm)
    · rcases h' with h' | ⟨-, rfl, h'⟩
      · obtain ⟨m', hm, hn, -⟩ := lastMember_named h'
        exact absurd hn (h m' hm)
      · rfl

/-- Finding the first member with a name. -/
theorem get_first {ms : List (List Byte × List Byte)} {t : List Byte} {s : String} (ha : Ascii s) (ho : Spec.Geojson.IsObj ms t) {j : Option J} {r : List Byte} (hj : Here j t r) :
    (∃ v r', FirstMember ms s v ∧ objGet j (txt s) = peekAny (v ++ r') ∧ Here (objGet j (txt s)) v r') ∨ ((∀ m ∈ ms, ¬ Named m.1 s) ∧ objGet j (txt s) = none) := by
  rw [objGet_find (obj_head ho hj).2]
  have hp := obj_pairs ho hj
  have hs : ∀ m ∈ ms, Str m.1 := fun m hm => (ho.1 m hm).1
  clear ho hj
  generalize pairs j = ps at hp
  induction hp with
  | nil => exact .inr ⟨by simp, rfl⟩
  | @cons p m ps ms hp _ ih =>
    rw [List.find?_cons]
    by_cases hn : Named m.1 s
    · rw [(mem_strEq hp (hs m (by simp)) ha).2 hn]
      obtain ⟨-, r2, e2, h2⟩ := hp
      exact .inl ⟨m.2, r2, firstMember_cons.2 (.inl ⟨hn, rfl⟩), e2, h2⟩
    · rw [mem_strEq_not hp (hs m (by simp)) ha hn]
      rcases ih (fun m hm => hs m (by simp [hm])) with ⟨v, r', h1, h2, h3⟩ | ⟨h1, h2⟩
      · exact .inl ⟨v, r', firstMember_cons.2 (.inr ⟨hn, h1⟩), h2, h3⟩
      · refine .inr ⟨fun x hx => ?_, h2⟩
        rcases List.mem_cons.1 hx with rfl | hx
        · exact hn
        · exact h1 x hx

theorem firstMember_unique {ms : List (List Byte × List Byte)} {s : String} {v v' : List Byte} (h : FirstMember ms s v) (h' : FirstMember ms s v') : v = v' := by
  induction ms with
  | nil => obtain ⟨a, k, b, e, -⟩ := h; simp at e
  | cons m ms ih =>
    rw [firstMember_cons] at h h'
    rcases h with ⟨n, rfl⟩ | ⟨n, h⟩
    · rcases h' with ⟨n', rfl⟩ | ⟨n', -⟩
      · rfl
      · exact absurd n n'
    · rcases h' with ⟨n', -⟩ | ⟨-, h'⟩
      · exact absurd n' n
      · exact ih h h'

/-! ### The loop over the members -/

/-- The target is the last one. -/
theorem takeLoop_last {target : String} (ha : Ascii target) (htt : txt target ≠ txt "type") {ps : List (Option J × Option J)} {ms : List (List Byte × List Byte)}
    (h : List.Forall₂ IsMem ps ms) : (∀ m ∈ ms, Str m.1) → ∀ a a', takeLoop target a ps = .ok a' →
      (∃ c r, LastMember ms target c ∧ Here a'.target c r) ∨ ((∀ m ∈ ms, ¬ Named m.1 target) ∧ a'.target = a.target) := by
  induction h with
  | nil =>
    intro _ a a' h
    cases h
    exact .inr ⟨by simp, rfl⟩
  | @cons p m ps ms hp _ ih =>
    intro hs a a' h
    obtain ⟨k, v⟩ := p
    rw [takeLoop] at h
    obtain ⟨a1, h1, h⟩ := bind_ok h
    have hm := hs m (by simp)
    have step : (Named m.1 target ∧ a1.target = ensure v) ∨ (¬ Named m.1 target ∧ a1.target = a.target) := by
      rw [takeMember] at h1
      by_cases ht : Named m.1 target
      · have hnt : ¬ Named m.1 "type" := fun h => htt (named_unique ht h)
        have e1 := mem_strEq_not hp hm ascii_type hnt
        have e2 := (mem_strEq hp hm ha).2 ht
        dsimp only at e1 e2
        rw [e1, e2, if_neg (by simp), if_pos rfl] at h1
        cases h1
        exact .inl ⟨ht, rfl⟩
      · have e2 := mem_strEq_not hp hm ha ht
        dsimp only at e2
        rw [e2] at h1
        simp only [Bool.false_eq_true, if_false] at h1
        refine .inr ⟨ht, ?_⟩
        repeat' first | (cases h1; done) | (cases h1; rfl; done) | (split at h1)
    rcases ih (fun m hm => hs m (by simp [hm])) a1 a' h with ⟨c, r, h2, h3⟩ | ⟨h2, h3⟩
    · exact .inl ⟨c, r, lastMember_cons.2 (.inl h2), h3⟩
    · rcases step with ⟨hn, e⟩ | ⟨hn, e⟩
      · obtain ⟨-, r, -, hv⟩ := id hp
        exact .inl ⟨m.2, r, lastMember_cons.2 (.inr ⟨hn, rfl, h2⟩), by rw [h3, e]; exact hv.ensure⟩
      · refine .inr ⟨fun x hx => ?_, h3.trans e⟩
        rcases List.mem_cons.1 hx with rfl | hx
        · exact hn
        · exact h2 x hx

/-- Without the checks for a Feature the loop does not fail. -/
theorem takeLoop_plain {target : String} (hg : target ≠ "geometry") : ∀ (ps : List (Option J × Option J)) (a : Acc), ∃ a', takeLoop target a ps = .ok a'
  | [], a => ⟨a, rfl⟩
  | (k, v) :: ps, a => by
    have : ∃ a1, takeMember target a k v = .ok a1 := by
      rw [takeMember]
      split_ifs <;> exact ⟨_, rfl⟩
    obtain ⟨a1, h⟩ := this
    obtain ⟨a', h'⟩ := takeLoop_plain hg ps a1
    exact ⟨a', by rw [takeLoop, h]; exact h'⟩

/-- What has to hold of the properties … -/
abbrev PropsOk (v : List Byte) : Prop := v = txt "null" ∨ ∃ ms', Spec.Geojson.IsObj ms' v
/-- … and of the id. -/
abbrev IdOk (v : List Byte) : Prop := Str v ∨ IsNumber v

/-- When the loop over the members of a Feature does not fail. -/
theorem takeLoop_feature {ps : List (Option J × Option J)} {ms : List (List Byte × List Byte)} (h : List.Forall₂ IsMem ps ms) : (∀ m ∈ ms, Str m.1 ∧ JVal m.2) → ∀ a,
    (∃ a', takeLoop "geometry" a ps = .ok a') ↔
      (a.hasProps = false → ∀ v, FirstMember ms "properties" v → PropsOk v) ∧ (a.hasId = false → ∀ v, FirstMember ms "id" v → IdOk v) := by
  induction h with
  | nil =>
    intro _ a
    have no : ∀ s v, ¬ FirstMember [] s v := by rintro s v ⟨a, k, b, e, -⟩; simp at e
    exact ⟨fun _ => ⟨fun _ v hv => absurd hv (no _ _), fun _ v hv => absurd hv (no _ _)⟩, fun _ => ⟨a, rfl⟩⟩
  | @cons p m ps ms hp _ ih =>
    intro hs a
    obtain ⟨k, v⟩ := p
    have ih := ih fun m hm => hs m (by simp [hm])
    obtain ⟨hm, hjv⟩ := hs m (by simp)
    obtain ⟨-, r, -, hv⟩ := id hp
    dsimp only at hv
    have np_id : Named m.1 "properties" → ¬ Named m.1 "id" := fun h h' => absurd (named_unique h h') (by decide)
    have np_ty : Named m.1 "type" → ¬ Named m.1 "properties" := fun h h' => absurd (named_unique h h') (by decide)
    have id_ty : Named m.1 "type" → ¬ Named m.1 "id" := fun h h' => absurd (named_unique h h') (by decide)
    have np_ge : Named m.1 "geometry" → ¬ Named m.1 "properties" := fun h h' => absurd (named_unique h h') (by decide)
    have id_ge : Named m.1 "geometry" → ¬ Named m.1 "id" := fun h h' => absurd (named_unique h h') (by decide)
    have ske : ∀ {s : String}, ¬ Named m.1 s → ∀ u, FirstMember (m :: ms) s u ↔ FirstMember ms s u := fun hn u => by
      rw [firstMember_cons]; exact ⟨fun h => by rcases h with h | h; exacts [absurd h.1 hn, h.2], fun h => .inr ⟨hn, h⟩⟩
    have hit : ∀ {s : String}, Named m.1 s → ∀ u, FirstMember (m :: ms) s u ↔ u = m.2 := fun hn u => by
      rw [firstMember_cons]; exact ⟨fun h => by rcases h with h | h; exacts [h.2, absurd hn h.1], fun h => .inl ⟨hn, h⟩⟩
    have go : ∀ {a1 : Acc}, takeMember "geometry" a k v = .ok a1 → ((∃ a', takeLoop "geometry" a ((k, v) :: ps) = .ok a') ↔ ∃ a', takeLoop "geometry" a1 ps = .ok a') := by
      intro a1 h
      rw [takeLoop, h]
      rfl
    by_cases ht : Named m.1 "type"
    · have e : takeMember "geometry" a k v = .ok a := by rw [takeMember, if_pos ((mem_strEq hp hm ascii_type).2 ht)]
      rw [go e, ih a]
      simp only [ske (np_ty ht), ske (id_ty ht)]
    have e1 := mem_strEq_not hp hm ascii_type ht
    dsimp only at e1
    by_cases hg : Named m.1 "geometry"
    · have e : takeMember "geometry" a k v = .ok { a with target := ensure v } := by
        rw [takeMember, e1, if_neg (by simp), if_pos ((mem_strEq hp hm ascii_geometry).2 hg)]
      rw [go e, ih]
      simp only [ske (np_ge hg), ske (id_ge hg)]
    have e2 := mem_strEq_not hp hm ascii_geometry hg
    dsimp only at e2
    by_cases hpr : Named m.1 "properties"
    · have e3 := (mem_strEq hp hm ascii_properties).2 hpr
      dsimp only at e3
      cases hap : a.hasProps with
      | true =>
        have e : takeMember "geometry" a k v = .ok a := by
          rw [takeMember, e1, e2, if_neg (by simp), if_neg (by simp), if_pos rfl, e3, if_pos rfl, hap]; rfl
        rw [go e, ih a, hap]
        simp only [ske (np_id hpr)]
        simp
      | false =>
        simp only [hit hpr, forall_eq, ske (np_id hpr), true_imp_iff]
        by_cases hnull : jtype v = .null
        · have e : takeMember "geometry" a k v = .ok { a with nullProps := true, hasProps := true } := by
            rw [takeMember, e1, e2, if_neg (by simp), if_neg (by simp), if_pos rfl, e3, if_pos rfl, hap, if_pos (by simp), if_pos hnull]
          rw [go e, ih]
          have := jval_null hjv hv hnull
          simp [PropsOk, this]
        · by_cases hobj : jtype v = .object
          · have e : takeMember "geometry" a k v = .ok { a with hasProps := true, extra := if (first v).isSome then addPair a.extra k v else a.extra } := by
              rw [takeMember, e1, e2, if_neg (by simp), if_neg (by simp), if_pos rfl, e3, if_pos rfl, hap, if_pos (by simp), if_neg hnull, if_pos hobj]
            rw [go e, ih]
            have := jval_obj hjv hv hobj
            simp [PropsOk, this]
          · have e : takeMember "geometry" a k v = .err "'properties' must be an object or null" := by
              rw [takeMember, e1, e2, if_neg (by simp), if_neg (by simp), if_pos rfl, e3, if_pos rfl, hap, if_pos (by simp), if_neg hnull, if_neg hobj]
            rw [takeLoop, e]
            constructor
            · rintro ⟨a', h⟩; cases h
            · rintro ⟨h | ⟨ms', h⟩, -⟩
              · rw [h] at hv; exact absurd (null_type hv) hnull
              · exact absurd (obj_head h hv).1 hobj
    have e3 := mem_strEq_not hp hm ascii_properties hpr
    dsimp only at e3
    by_cases hid : Named m.1 "id"
    · have e4 := (mem_strEq hp hm ascii_id).2 hid
      dsimp only at e4
      cases hai : a.hasId with
      | true =>
        have e : takeMember "geometry" a k v = .ok a := by
          rw [takeMember, e1, e2, if_neg (by simp), if_neg (by simp), if_pos rfl, e3, if_neg (by simp), e4, if_pos rfl, if_pos hai]
        rw [go e, ih a, hai]
        simp only [ske hpr]
        simp
      | false =>
        simp only [hit hid, forall_eq, ske hpr, true_imp_iff]
        by_cases hty : jtype v ≠ .string ∧ jtype v ≠ .number
        · have e : takeMember "geometry" a k v = .err "'id' must be a string or number" := by
            rw [takeMember, e1, e2, if_neg (by simp), if_neg (by simp), if_pos rfl, e3, if_neg (by simp), e4, if_pos rfl, hai, if_neg (by simp), if_pos hty]
          rw [takeLoop, e]
          constructor
          · rintro ⟨a', h⟩; cases h
          · rintro ⟨-, h | h⟩
            · exact absurd (str_type h hv) hty.1
            · exact absurd (number_type h hv) hty.2
        · have e : takeMember "geometry" a k v = .ok { a with hasId := true, extra := addPair a.extra k v } := by
            rw [takeMember, e1, e2, if_neg (by simp), if_neg (by simp), if_pos rfl, e3, if_neg (by simp), e4, if_pos rfl, hai, if_neg (by simp), if_neg hty]
          rw [go e, ih]
          have : IdOk m.2 := by
            by_cases h1 : jtype v = .string
            · exact .inl (jval_string hjv hv h1)
            · by_cases h2 : jtype v = .number
              · exact .inr (jval_number hjv hv h2)
              · exact absurd ⟨h1, h2⟩ hty
          simp [this]
    · have e4 := mem_strEq_not hp hm ascii_id hid
      dsimp only at e4
      have e : takeMember "geometry" a k v = .ok { a with extra := addPair a.extra k v } := by
        rw [takeMember, e1, e2, if_neg (by simp), if_neg (by simp), if_pos rfl, e3, if_neg (by simp), e4, if_neg (by simp)]
      rw [go e, ih]
      simp only [ske hpr, ske hid]

/-! ### `take_basic_geojson` -/

variable {ms : List (List Byte × List Byte)} {t r : List Byte} {j : Option J}

theorem takeBasic_inv {target : String} (hg : target ≠ "geometry") (ha : Ascii target) (htt : txt target ≠ txt "type") (ho : Spec.Geojson.IsObj ms t) (hj : Here j t r) {b : Basic}
    (h : takeBasic j target = .ok b) : ∃ c r' vs, LastMember ms target c ∧ Here b.target c r' ∧ IsArr vs c ∧ (∀ v ∈ vs, JVal v) ∧ b = ⟨b.target, { isEmpty := (first b.target).isNone }, b.extra⟩ := by
  unfold takeBasic at h
  obtain ⟨a, h1, h⟩ := bind_ok h
  by_cases hn : a.target.isNone
  · rw [if_pos hn] at h; cases h
  rw [if_neg hn] at h
  dsimp only at h
  rw [if_neg hg] at h
  obtain ⟨fl, h2, h⟩ := bind_ok h
  by_cases hty : jtype a.target ≠ .array
  · rw [if_pos hty] at h2; cases h2
  rw [if_neg hty] at h2
  cases h2
  cases h
  rcases takeLoop_last ha htt (obj_pairs ho hj) (fun m hm => (ho.1 m hm).1) _ _ h1 with ⟨c, r', h3, h4⟩ | ⟨-, h4⟩
  · obtain ⟨m, hm, -, rfl⟩ := lastMember_named h3
    obtain ⟨vs, h5, h6⟩ := jval_arr (ho.1 m hm).2 h4 (not_not.1 hty)
    exact ⟨_, r', vs, h3, h4, h5, h6, rfl⟩
  · rw [h4] at hn; exact absurd rfl hn

theorem takeBasic_last {target : String} (hg : target ≠ "geometry") (ha : Ascii target) (htt : txt target ≠ txt "type") (ho : Spec.Geojson.IsObj ms t) (hj : Here j t r) {c : List Byte}
    {vs : List (List Byte)} (hl : LastMember ms target c) (hc : IsArr vs c) : ∃ T r' x, takeBasic j target = .ok ⟨T, { isEmpty := (first T).isNone }, x⟩ ∧ Here T c r' := by
  obtain ⟨a, h1⟩ := takeLoop_plain hg (pairs j) {}
  rcases takeLoop_last ha htt (obj_pairs ho hj) (fun m hm => (ho.1 m hm).1) _ _ h1 with ⟨c', r', h3, h4⟩ | ⟨h3, -⟩
  · rw [lastMember_unique h3 hl] at h4
    have hs : a.target.isNone = false := by
      have := h4.isSome
      cases hh : a.target <;> simp_all
    refine ⟨a.target, r', if a.extra.length > 0 then some (List.takeWhile (fun x => x != 0#8) (a.extra ++ [125#8])) else none, ?_, h4⟩
    rw [takeBasic, h1]
    simp only [P.bind]
    rw [hs, if_neg (by simp), if_neg hg, if_neg (by rw [arr_head hc h4]; simp)]
  · obtain ⟨m, hm, hn, -⟩ := lastMember_named hl
    exact absurd hn (h3 m hm)

theorem takeBasic_feature_inv (ho : Spec.Geojson.IsObj ms t) (hj : Here j t r) {b : Basic} (h : takeBasic j "geometry" = .ok b) :
    LooseMembers ms ∧ ∃ c r', LastMember ms "geometry" c ∧ Here b.target c r' ∧ JVal c ∧
      ((∃ np ms', Spec.Geojson.IsObj ms' c ∧ b.flags = { nullProps := np }) ∨ (∃ np, c = txt "null" ∧ b.flags = { nullProps := np, isEmpty := true, unlocated := true })) := by
  unfold takeBasic at h
  obtain ⟨a, h1, h⟩ := bind_ok h
  by_cases hn : a.target.isNone
  · rw [if_pos hn] at h; cases h
  rw [if_neg hn] at h
  dsimp only at h
  rw [if_pos rfl] at h
  obtain ⟨fl, h2, h⟩ := bind_ok h
  cases h
  have hl := (takeLoop_feature (obj_pairs ho hj) (fun m hm => ho.1 m hm) {}).1 ⟨a, h1⟩
  refine ⟨⟨hl.1 rfl, hl.2 rfl⟩, ?_⟩
  rcases takeLoop_last ascii_geometry (by decide) (obj_pairs ho hj) (fun m hm => (ho.1 m hm).1) _ _ h1 with ⟨c, r', h3, h4⟩ | ⟨-, h4⟩
  · obtain ⟨m, hm, -, rfl⟩ := lastMember_named h3
    have hjv := (ho.1 m hm).2
    refine ⟨_, r', h3, h4, hjv, ?_⟩
    by_cases hob : jtype a.target = .object
    · rw [if_pos hob] at h2
      cases h2
      obtain ⟨ms', h5⟩ := jval_obj hjv h4 hob
      exact .inl ⟨_, ms', h5, rfl⟩
    · rw [if_neg hob] at h2
      by_cases hnu : jtype a.target = .null
      · rw [if_pos hnu] at h2
        cases h2
        exact .inr ⟨_, jval_null hjv h4 hnu, rfl⟩
      · rw [if_neg hnu] at h2; cases h2
  · rw [h4] at hn; exact absurd rfl hn

theorem takeBasic_feature_last (ho : Spec.Geojson.IsObj ms t) (hj : Here j t r) (hm : LooseMembers ms) {c : List Byte} (hl : LastMember ms "geometry" c) :
    ((∃ vs, Spec.Geojson.IsObj vs c) → ∃ T r' np x, takeBasic j "geometry" = .ok ⟨T, { nullProps := np }, x⟩ ∧ Here T c r') ∧
    (c = txt "null" → ∃ T np x, takeBasic j "geometry" = .ok ⟨T, { nullProps := np, isEmpty := true, unlocated := true }, x⟩) := by
  obtain ⟨a, h1⟩ := (takeLoop_feature (obj_pairs ho hj) (fun m hm => ho.1 m hm) {}).2 ⟨fun _ => hm.1, fun _ => hm.2⟩
  rcases takeLoop_last ascii_geometry (by decide) (obj_pairs ho hj) (fun m hm => (ho.1 m hm).1) _ _ h1 with ⟨c', r', h3, h4⟩ | ⟨h3, -⟩
  · rw [lastMember_unique h3 hl] at h4
    have hs : a.target.isNone = false := by
      have := h4.isSome
      cases hh : a.target <;> simp_all
    constructor
    · rintro ⟨vs, hvs⟩
      refine ⟨a.target, r', a.nullProps, if a.extra.length > 0 then some (List.takeWhile (fun x => x != 0#8) (a.extra ++ [125#8])) else none, ?_, h4⟩
      rw [takeBasic, h1]
      simp only [P.bind]
      rw [hs, if_neg (by simp), if_pos trivial, if_pos (obj_head hvs h4).1]
    · rintro rfl
      refine ⟨a.target, a.nullProps, if a.extra.length > 0 then some (List.takeWhile (fun x => x != 0#8) (a.extra ++ [125#8])) else none, ?_⟩
      rw [takeBasic, h1]
      simp only [P.bind]
      rw [hs, if_neg (by simp), if_pos trivial, if_neg (by rw [null_type h4]; simp), if_pos (null_type h4)]
  · obtain ⟨m, hm, hn, -⟩ := lastMember_named hl
    exact absurd hn (h3 m hm)

end Tg.Gp
