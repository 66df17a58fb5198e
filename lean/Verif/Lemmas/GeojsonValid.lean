import Verif.Lemmas.GeojsonWrite
import Verif.Lemmas.JsonNav
import Verif.Spec.Extra
/-! The text of the GeoJSON writer is in the JSON grammar. -/
set_option linter.unusedSectionVars false
namespace Tg.Json

open Spec Spec.Json

mutual
theorem val_up {S : List Byte → Prop} : ∀ {n v}, Val S n v → ∀ {m}, n ≤ m → Val S m v
  | _, _, .null _, m + 1, _ => .null _
  | _, _, .true_ _, m + 1, _ => .true_ _
  | _, _, .false_ _, m + 1, _ => .false_ _
  | _, _, .num _ _ h, m + 1, _ => .num _ _ h
  | _, _, .str _ _ h, m + 1, _ => .str _ _ h
  | _, _, .arr0 _ _ h, m + 1, _ => .arr0 _ _ h
  | _, _, .arr _ _ h, m + 1, hm => .arr _ _ (elems_up h (by omega))
  | _, _, .obj0 _ _ h, m + 1, _ => .obj0 _ _ h
  | _, _, .obj _ _ h, m + 1, hm => .obj _ _ (mems_up h (by omega))
theorem elems_up {S : List Byte → Prop} : ∀ {n v}, Elems S n v → ∀ {m}, n ≤ m → Elems S m v
  | _, _, .one _ _ _ _ h1 h2 h3, _, hm => .one _ _ _ _ h1 (val_up h2 hm) h3
  | _, _, .cons _ _ _ _ _ h1 h2 h3 h4, _, hm => .cons _ _ _ _ _ h1 (val_up h2 hm) h3 (elems_up h4 hm)
theorem mems_up {S : List Byte → Prop} : ∀ {n v}, Mems S n v → ∀ {m}, n ≤ m → Mems S m v
  | _, _, .one _ _ _ _ _ _ _ h1 h2 h3 h4 h5 h6, _, hm => .one _ _ _ _ _ _ _ h1 h2 h3 h4 (val_up h5 hm) h6
  | _, _, .cons _ _ _ _ _ _ _ _ h1 h2 h3 h4 h5 h6 h7, _, hm => .cons _ _ _ _ _ _ _ _ h1 h2 h3 h4 (val_up h5 hm) h6 (mems_up h7 hm)
end

variable {U : List Byte → Prop} (hU : NoAscii U)

/-- A value. -/
def IsVal (U : List Byte → Prop) (v : List Byte) : Prop := ∃ n, Val (QStr U) n v
/-- Members of an object. -/
def IsMems (U : List Byte → Prop) (l : List Byte) : Prop := ∃ n, Mems (QStr U) n l
/-- An object with members. -/
def IsObj (U : List Byte → Prop) (t : List Byte) : Prop := ∃ m, IsMems U m ∧ t = 0x7B#8 :: (m ++ [0x7D#8])

theorem ws_none : Ws [] := fun b hb => by simp at hb

theorem IsMems.one {k v : List Byte} (hk : QStr U k) (hv : IsVal U v) : IsMems U (k ++ 0x3A#8 :: v) := by
  obtain ⟨n, hv⟩ := hv
  have := Mems.one n [] k [] [] v [] ws_none hk ws_none ws_none hv ws_none
  exact ⟨n, by simpa using this⟩

theorem mems_append {n : Nat} {b : List Byte} (hb : Mems (QStr U) n b) : ∀ {a}, Mems (QStr U) n a → Mems (QStr U) n (a ++ 0x2C#8 :: b)
  | _, .one _ w k w' w'' v w3 h1 h2 h3 h4 h5 h6 => by
    have := Mems.cons n w k w' w'' v w3 b h1 h2 h3 h4 h5 h6 hb
    simpa using this
  | _, .cons _ w k w' w'' v w3 l h1 h2 h3 h4 h5 h6 h7 => by
    have := Mems.cons n w k w' w'' v w3 _ h1 h2 h3 h4 h5 h6 (mems_append hb h7)
    simpa using this

theorem IsMems.append {a b : List Byte} (ha : IsMems U a) (hb : IsMems U b) : IsMems U (a ++ 0x2C#8 :: b) := by
  obtain ⟨n, ha⟩ := ha
  obtain ⟨m, hb⟩ := hb
  exact ⟨max n m, mems_append (mems_up hb (by omega)) (mems_up ha (by omega))⟩

theorem IsObj.val {t : List Byte} (h : IsObj U t) : IsVal U t := by
  obtain ⟨m, ⟨n, hm⟩, rfl⟩ := h
  exact ⟨n + 1, .obj _ _ hm⟩

/-- A list of values in brackets. -/
theorem IsVal.arr {ts : List (List Byte)} (h : ∀ t ∈ ts, IsVal U t) : IsVal U (bracket 0x5B#8 0x5D#8 ts) := by
  cases ts with
  | nil =>
    have := Val.arr0 (S := QStr U) 0 [] ws_none
    exact ⟨1, by simpa [bracket, join] using this⟩
  | cons t ts =>
    have key : ∀ (ts : List (List Byte)) (t : List Byte), IsVal U t → (∀ t ∈ ts, IsVal U t) → ∃ n, Elems (QStr U) n (t ++ eachAfter 0x2C#8 ts) := by
      intro ts
      induction ts with
      | nil =>
        rintro t ⟨n, ht⟩ -
        have := Elems.one n [] t [] ws_none ht ws_none
        exact ⟨n, by simpa [eachAfter] using this⟩
      | cons t' ts ih =>
        rintro t ⟨n, ht⟩ h
        obtain ⟨m, he⟩ := ih t' (h t' (by simp)) fun x hx => h x (by simp [hx])
        have := Elems.cons (max n m) [] t [] _ ws_none (val_up ht (by omega)) ws_none (elems_up he (by omega))
        exact ⟨_, by simpa [eachAfter] using this⟩
    obtain ⟨n, he⟩ := key ts t (h t (by simp)) fun x hx => h x (by simp [hx])
    exact ⟨n + 1, .arr _ _ he⟩

/-- A string of plain ASCII. -/
theorem qstr_plain {l : List Byte} (h : ∀ b ∈ l, 0x20 ≤ b.toNat ∧ b.toNat < 0x80 ∧ b ≠ 0x22#8 ∧ b ≠ 0x5C#8) : QStr U (0x22#8 :: (l ++ [0x22#8])) := by
  refine ⟨l, ?_, rfl⟩
  induction l with
  | nil => exact .nil
  | cons b l ih =>
    obtain ⟨h1, h2, h3, h4⟩ := h b (by simp)
    exact .cons [b] l (.ascii b h1 h2 h3 h4) (ih fun x hx => h x (by simp [hx]))

theorem str_val {s : List Byte} (h : QStr U s) : IsVal U s := ⟨1, .str _ _ h⟩

/-! ### The extra JSON -/

/-- Nothing, or a value. -/
def Good (U : List Byte → Prop) (j : Option J) : Prop := j = none ∨ ∃ v r, IsVal U v ∧ Here j v r

theorem parse_eq (x : List Byte) : parse x = peekAny x := by
  cases x with
  | nil => rfl
  | cons b t =>
    rw [parse]
    split_ifs with h
    · rw [Bool.or_eq_true, beq_iff_eq, beq_iff_eq] at h
      rcases h with rfl | rfl <;> simp [peekAny]
    · rfl

/-- A value that starts with a brace is an object. -/
theorem val_obj {n v} (h : Val (QStr U) n v) (hv : v.head? = some 0x7B#8) :
    (∃ w, Ws w ∧ v = 0x7B#8 :: (w ++ [0x7D#8])) ∨ (∃ k l, Mems (QStr U) k l ∧ v = 0x7B#8 :: (l ++ [0x7D#8])) := by
  cases h with
  | null => simp at hv
  | true_ => simp at hv
  | false_ => simp at hv
  | num _ _ h =>
    obtain ⟨b, t, rfl, hb⟩ := number_head h
    simp at hv; subst hv
    rcases hb with hb | hb
    · exact absurd hb (by decide)
    · exact absurd hb.2 (by decide)
  | str _ _ h => obtain ⟨cs, -, rfl⟩ := h; simp at hv
  | arr0 => simp at hv
  | arr => simp at hv
  | obj0 _ w h => exact .inl ⟨w, h, rfl⟩
  | obj k l h => exact .inr ⟨k, l, h, rfl⟩

theorem val_arr {n v} (h : Val (QStr U) n v) (hv : v.head? = some 0x5B#8) :
    (∃ w, Ws w ∧ v = 0x5B#8 :: (w ++ [0x5D#8])) ∨ (∃ k l, Elems (QStr U) k l ∧ v = 0x5B#8 :: (l ++ [0x5D#8])) := by
  cases h with
  | null => simp at hv
  | true_ => simp at hv
  | false_ => simp at hv
  | num _ _ h =>
    obtain ⟨b, t, rfl, hb⟩ := number_head h
    simp at hv; subst hv
    rcases hb with hb | hb
    · exact absurd hb (by decide)
    · exact absurd hb.2 (by decide)
  | str _ _ h => obtain ⟨cs, -, rfl⟩ := h; simp at hv
  | arr0 _ w h => exact .inl ⟨w, h, rfl⟩
  | arr k l h => exact .inr ⟨k, l, h, rfl⟩
  | obj0 => simp at hv
  | obj => simp at hv

theorem Here.head_eq {j v r} (h : Here j v r) : v.head? = some (Json.head j) := by
  obtain ⟨i, rfl, h1, -, h3⟩ := id h
  cases v with
  | nil => exact absurd rfl h3
  | cons b t => rw [h.head rfl]; rfl

/-- An object that is found is empty, and then has no first member, or has members. -/
theorem good_obj {j : Option J} (h : Good U j) (ho : isObj j = true) :
    (first j = none) ∨ ∃ n l r, Mems (QStr U) n l ∧ Here j (0x7B#8 :: (l ++ [0x7D#8])) r ∧ first j = peekAny (l ++ 0x7D#8 :: r) := by
  rcases h with rfl | ⟨v, r, ⟨n, hv⟩, hj⟩
  · simp [isObj, head] at ho
  · rw [isObj, beq_iff_eq] at ho
    rcases val_obj hv (by rw [hj.head_eq, ho]) with ⟨w, hw, rfl⟩ | ⟨k, l, hl, rfl⟩
    · left
      rw [hj.first rfl (.inl rfl), List.append_assoc, peek_ws hw]
      simp [peekAny]
    · right
      refine ⟨k, l, r, hl, hj, ?_⟩
      rw [hj.first rfl (.inl rfl), List.append_assoc]; rfl

include hU

theorem parse_good {n w v w'} (hw : Ws w) (hv : Val (QStr U) n v) (hw' : Ws w') : Here (parse (w ++ (v ++ w'))) v w' := by
  rw [parse_eq, peek_ws hw]
  refine peek_val hU hv ?_
  have := stop_ws hw' stop_nil
  simpa using this

theorem extra_good {fl : Flags} {x : Option (List Byte)} (h : ExtraOk (QStr U) fl x) :
    Good U (gjExtra fl.isFeature x).1 ∧ Good U (gjExtra fl.isFeature x).2 ∧
      (fl.isFeature = true → fl.unlocated = true → (gjExtra fl.isFeature x).2 = none) := by
  cases x with
  | none => exact ⟨.inl rfl, .inl rfl, fun _ _ => rfl⟩
  | some d =>
    obtain ⟨n, w, v, w', hw, hv, hw', rfl, hu⟩ := h d rfl
    have hp := parse_good hU hw hv hw'
    rw [gjExtra]
    dsimp only
    cases hf : fl.isFeature with
    | false =>
      simp only [Bool.false_eq_true, if_false]
      exact ⟨.inl rfl, .inr ⟨v, w', ⟨n, hv⟩, hp.ensure⟩, by simp⟩
    | true =>
      simp only [if_true]
      by_cases ha : isArr (parse (w ++ (v ++ w'))) = true
      · rw [if_pos ha]
        dsimp only
        rw [isArr, beq_iff_eq] at ha
        have hh : v.head? = some 0x5B#8 := by rw [hp.head_eq, ha]
        rcases val_arr hv hh with ⟨w1, hw1, rfl⟩ | ⟨k, l, hl, rfl⟩
        · have : first (parse (w ++ (0x5B#8 :: (w1 ++ [0x5D#8]) ++ w'))) = none := by
            rw [hp.first rfl (.inr rfl), List.append_assoc, peek_ws hw1]
            simp [peekAny]
          rw [this]
          exact ⟨.inl rfl, .inl rfl, fun _ hul => absurd hh (hu hf hul)⟩
        · have hfst := hp.first rfl (.inr rfl)
          cases hl with
          | one _ w1 v1 w2 h1 h2 h3 =>
            have h4 : Here (ensure (first (parse (w ++ (0x5B#8 :: (w1 ++ (v1 ++ w2) ++ [0x5D#8]) ++ w'))))) v1 (w2 ++ 0x5D#8 :: w') := by
              rw [hfst]
              have : (w1 ++ (v1 ++ w2) ++ [0x5D#8]) ++ w' = w1 ++ (v1 ++ (w2 ++ 0x5D#8 :: w')) := by simp
              rw [this, peek_ws h1]
              exact (peek_val hU h2 (stop_ws h3 (stop_byte (by decide) _))).ensure
            have h5 : next (ensure (first (parse (w ++ (0x5B#8 :: (w1 ++ (v1 ++ w2) ++ [0x5D#8]) ++ w'))))) = none := by
              rw [h4.next, peek_ws h3]; simp [peekAny]
            rw [h5]
            exact ⟨.inr ⟨v1, _, ⟨_, h2⟩, h4⟩, .inl rfl, fun _ _ => rfl⟩
          | cons _ w1 v1 w2 l h1 h2 h3 hl =>
            have h4 : Here (ensure (first (parse (w ++ (0x5B#8 :: (w1 ++ (v1 ++ (w2 ++ 0x2C :: l)) ++ [0x5D#8]) ++ w'))))) v1 (w2 ++ 0x2C#8 :: (l ++ 0x5D#8 :: w')) := by
              rw [hfst]
              have : (w1 ++ (v1 ++ (w2 ++ 0x2C :: l)) ++ [0x5D#8]) ++ w' = w1 ++ (v1 ++ (w2 ++ 0x2C#8 :: (l ++ 0x5D#8 :: w'))) := by simp
              rw [this, peek_ws h1]
              exact (peek_val hU h2 (stop_ws h3 (stop_byte (by decide) _))).ensure
            have h5 : ∃ v2 r, IsVal U v2 ∧ Here (ensure (next (ensure (first (parse (w ++ (0x5B#8 :: (w1 ++ (v1 ++ (w2 ++ 0x2C :: l)) ++ [0x5D#8]) ++ w'))))))) v2 r := by
              rw [h4.next, peek_ws h3, peek_skip (by simp)]
              cases hl with
              | one _ u1 z1 u2 g1 g2 g3 =>
                have : (u1 ++ (z1 ++ u2)) ++ 0x5D#8 :: w' = u1 ++ (z1 ++ (u2 ++ 0x5D#8 :: w')) := by simp
                rw [this, peek_ws g1]
                exact ⟨z1, _, ⟨_, g2⟩, (peek_val hU g2 (stop_ws g3 (stop_byte (by decide) _))).ensure⟩
              | cons _ u1 z1 u2 l' g1 g2 g3 g4 =>
                have : (u1 ++ (z1 ++ (u2 ++ 0x2C :: l'))) ++ 0x5D#8 :: w' = u1 ++ (z1 ++ (u2 ++ 0x2C#8 :: (l' ++ 0x5D#8 :: w'))) := by simp
                rw [this, peek_ws g1]
                exact ⟨z1, _, ⟨_, g2⟩, (peek_val hU g2 (stop_ws g3 (stop_byte (by decide) _))).ensure⟩
            obtain ⟨v2, r2, h6, h7⟩ := h5
            exact ⟨.inr ⟨v1, _, ⟨_, h2⟩, h4⟩, .inr ⟨v2, r2, h6, h7⟩, fun _ hul => absurd hh (hu hf hul)⟩
      · rw [if_neg ha]
        split
        · exact ⟨.inr ⟨v, w', ⟨n, hv⟩, hp.ensure⟩, .inl rfl, fun _ _ => rfl⟩
        · exact ⟨.inl rfl, .inl rfl, fun _ _ => rfl⟩

omit hU

/-! ### The parts of the text -/

theorem extraT_none (t : List Byte) : extraT none t = t := by simp [extraT, isObj, head]

theorem extraT_obj {j : Option J} (h : Good U j) {t : List Byte} (ht : IsObj U t) : IsObj U (extraT j t) := by
  unfold extraT
  split_ifs with hc
  · simp only [Bool.and_eq_true, decide_eq_true_eq] at hc
    obtain ⟨⟨h1, h2⟩, -⟩ := hc
    rcases good_obj h h1 with hn | ⟨n, l, r, hl, ha, -⟩
    · rw [hn] at h2; simp at h2
    · obtain ⟨m, hm, rfl⟩ := ht
      refine ⟨m ++ 0x2C#8 :: l, hm.append ⟨n, hl⟩, ?_⟩
      rw [ha.raw]
      simp only [List.drop_succ_cons, List.drop_zero]
      rw [show 0x7B#8 :: (m ++ [0x7D#8]) = (0x7B#8 :: m) ++ [0x7D#8] from rfl, List.dropLast_concat]
      simp
  · exact ht

/-- Members after others. -/
theorem pairsT_mems {kvs : List (List Byte × List Byte)} (h : ∀ p ∈ kvs, QStr U p.1 ∧ IsVal U p.2) (ps : List (Option J × Option J))
    (he : ps.map (fun p => (rawOf p.1, rawOf p.2)) = kvs) {m : List Byte} (hm : IsMems U m) : IsMems U (m ++ pairsT ps) := by
  induction ps generalizing kvs m with
  | nil => simpa [pairsT] using hm
  | cons p ps ih =>
    obtain ⟨k, v⟩ := p
    subst he
    rw [pairsT]
    obtain ⟨h1, h2⟩ := h (rawOf k, rawOf v) (by simp)
    have h3 : ∀ p ∈ ps.map (fun p => (rawOf p.1, rawOf p.2)), QStr U p.1 ∧ IsVal U p.2 := fun p hp => h p (by
      rw [List.map_cons]; exact List.mem_cons_of_mem _ hp)
    split_ifs
    · have := ih h3 rfl (hm.append (IsMems.one h1 h2))
      simpa using this
    · simpa using ih h3 rfl hm

include hU

theorem objGet_good {j : Option J} (h : Good U j) (key : List Byte) : Good U (objGet j key) := by
  by_cases ho : isObj j = true
  · rw [← objGet_fuel j key (left j + 1) (by omega) ho]
    rcases good_obj h ho with hn | ⟨n, l, r, hl, ha, hf⟩
    · rw [hn]; exact .inl rfl
    · rw [hf]
      rcases mems_get hU key hl r (left j + 1) with e | ⟨v, r', hv, e⟩
      · exact .inl e
      · exact .inr ⟨v, r', ⟨n, hv⟩, e⟩
  · unfold objGet
    rw [if_neg ho]
    exact .inl rfl

theorem pairs_good {j : Option J} (h : Good U j) (ho : isObj j = true) {m : List Byte} (hm : IsMems U m) : IsMems U (m ++ pairsT (pairs j)) := by
  rw [← pairs_fuel j (left j + 1) (by omega)]
  rcases good_obj h ho with hn | ⟨n, l, r, hl, ha, hf⟩
  · rw [hn]
    simpa [pairsLoop, pairsT] using hm
  · have hlen : l.length ≤ left j + 1 := by
      obtain ⟨i, hi, hr, -⟩ := id ha
      rw [hi]; simp only [left, hr, List.cons_append, List.length_cons, List.length_append]; omega
    obtain ⟨kvs, e1, -, e3⟩ := mems_pairs hU hl r _ hlen
    rw [hf]
    exact pairsT_mems (fun p hp => ⟨(e3 p hp).1, ⟨n, (e3 p hp).2⟩⟩) _ e1 hm

omit hU

/-- A member whose name is given in the code. -/
theorem lit_mem (name : String) (h : ∀ b ∈ txt name, 0x20 ≤ b.toNat ∧ b.toNat < 0x80 ∧ b ≠ 0x22#8 ∧ b ≠ 0x5C#8) {v : List Byte} (hv : IsVal U v) :
    IsMems U (0x22#8 :: (txt name ++ 0x22#8 :: 0x3A#8 :: v)) := by
  have := IsMems.one (qstr_plain h) hv
  simpa using this

include hU

/-- A Feature. -/
theorem feature_obj {f : Option J} (hf : Good U f) {g : List Byte} (hg : IsVal U g) (np : Bool) : IsObj U (featHeadT f ++ g ++ featTailT np f) := by
  have m1 : IsMems U (txt "\"type\":\"Feature\"") := by
    have := lit_mem (U := U) "type" (by decide) (str_val (qstr_plain (l := txt "Feature") (by decide)))
    exact this
  have m2 : IsMems U (txt "\"type\":\"Feature\"" ++
      (if (objGet f (txt "id")).isSome then 0x2C#8 :: (txt "\"id\":" ++ rawOf (objGet f (txt "id"))) else [])) := by
    rcases objGet_good hU hf (txt "id") with e | ⟨v, r, hv, e⟩
    · rw [e]; simpa using m1
    · rw [e.isSome, e.raw, if_pos rfl]
      exact m1.append (lit_mem "id" (by decide) hv)
  have m3 := m2.append (lit_mem (U := U) "geometry" (by decide) hg)
  have m4 : IsMems U ((txt "\"type\":\"Feature\"" ++
      (if (objGet f (txt "id")).isSome then 0x2C#8 :: (txt "\"id\":" ++ rawOf (objGet f (txt "id"))) else []) ++
      0x2C#8 :: 0x22#8 :: (txt "geometry" ++ 0x22#8 :: 0x3A#8 :: g)) ++ (if isObj f then pairsT (pairs f) else [])) := by
    by_cases ho : isObj f = true
    · rw [if_pos ho]; exact pairs_good hU hf ho m3
    · rw [if_neg ho]; simpa using m3
  have hp : IsVal U (txt (if np then "null" else "{}")) := by
    cases np with
    | true => exact ⟨1, .null 0⟩
    | false => exact ⟨1, .obj0 0 [] ws_none⟩
  have m5 := m4.append (lit_mem (U := U) "properties" (by decide) hp)
  by_cases hq : (isObj f && pairsP (pairs f)) = true
  · refine ⟨_, m4, ?_⟩
    rw [featHeadT, featTailT, if_pos hq]
    have e1 : txt "{\"type\":\"Feature\"," = 0x7B#8 :: (txt "\"type\":\"Feature\"" ++ [0x2C#8]) := by decide
    have e2 : txt "\"geometry\":" = 0x22#8 :: (txt "geometry" ++ [0x22#8, 0x3A#8]) := by decide
    rw [e1, e2]
    by_cases hi : (objGet f (txt "id")).isSome = true
    · simp only [hi, if_true]; simp
    · simp only [hi]; simp
  · refine ⟨_, m5, ?_⟩
    rw [featHeadT, featTailT, if_neg hq]
    have e1 : txt "{\"type\":\"Feature\"," = 0x7B#8 :: (txt "\"type\":\"Feature\"" ++ [0x2C#8]) := by decide
    have e2 : txt "\"geometry\":" = 0x22#8 :: (txt "geometry" ++ [0x22#8, 0x3A#8]) := by decide
    have e3 : txt ",\"properties\":" = 0x2C#8 :: 0x22#8 :: (txt "properties" ++ [0x22#8, 0x3A#8]) := by decide
    rw [e1, e2, e3]
    by_cases hi : (objGet f (txt "id")).isSome = true
    · simp only [hi, if_true]; simp
    · simp only [hi]; simp

theorem null_val : IsVal U (txt "null") := ⟨1, .null 0⟩

theorem baseT_obj {fl : Flags} {x : Option (List Byte)} (hx : ExtraOk (QStr U) fl x) {t : List Byte} (ht : IsObj U t) : IsObj U (baseT fl x t) := by
  obtain ⟨h1, h2, h3⟩ := extra_good hU hx
  rw [baseT]
  cases hf : fl.isFeature with
  | false =>
    rw [hf] at h2
    simpa using extraT_obj h2 ht
  | true =>
    rw [hf] at h1 h2 h3
    simp only [if_true, Bool.true_and]
    cases hu : fl.unlocated with
    | true =>
      rw [h3 rfl hu, extraT_none]
      exact feature_obj hU h1 (null_val hU) _
    | false =>
      exact feature_obj hU h1 (extraT_obj h2 ht).val _

theorem featT_obj (fl : Flags) {t : List Byte} (ht : IsObj U t) : IsObj U (featT fl t) := by
  rw [featT]
  cases hf : fl.isFeature with
  | false => simpa using ht
  | true =>
    have := feature_obj hU (f := none) (.inl rfl) ht.val fl.nullProps
    have e : featHeadT none ++ t ++ featTailT fl.nullProps none =
        txt "{\"type\":\"Feature\",\"geometry\":" ++ t ++ (txt ",\"properties\":" ++ txt (if fl.nullProps then "null}" else "{}}")) := by
      have e0 : featHeadT none = txt "{\"type\":\"Feature\",\"geometry\":" := by decide
      have e1 : featTailT fl.nullProps none = txt ",\"properties\":" ++ txt (if fl.nullProps then "null}" else "{}}") := by
        cases fl.nullProps <;> decide
      rw [e0, e1]
    rw [e] at this
    exact this

omit hU

theorem objT_obj (name : String) (h : ∀ b ∈ txt name, 0x20 ≤ b.toNat ∧ b.toNat < 0x80 ∧ b ≠ 0x22#8 ∧ b ≠ 0x5C#8)
    (e : gjHead name = 0x7B#8 :: 0x22#8 :: (txt "type" ++ 0x22#8 :: 0x3A#8 :: 0x22#8 :: (txt name ++ 0x22#8 :: 0x2C#8 :: 0x22#8 :: (txt "coordinates" ++ [0x22#8, 0x3A#8]))))
    {c : List Byte} (hc : IsVal U c) : IsObj U (objT name c) := by
  refine ⟨_, (lit_mem (U := U) "type" (by decide) (str_val (qstr_plain h))).append (lit_mem (U := U) "coordinates" (by decide) hc), ?_⟩
  rw [objT, e]
  simp

/-! ### Geometries -/

theorem num_val {nf : NumFmt} (hnf : nf.Sci) (x : F64) : IsVal U (nf.text x) := by
  refine ⟨1, .num _ _ ?_⟩
  rw [NumFmt.text, numText]
  split_ifs with hx
  · obtain ⟨q, -, hq⟩ := fpText_decimal (!nf.fixed) (hnf x hx)
    exact decimal_number hq
  · exact ⟨[], [0x30], [], [], rfl, .inl rfl, .inl rfl, .inl rfl, .inl rfl⟩

section
variable {num : F64 → List Byte} (hnum : ∀ x, IsVal U (num x))
include hnum

theorem Pj_val (p : List F64) : IsVal U (Pj num p) := by
  have := IsVal.arr (U := U) (ts := p.map num) (by intro t ht; obtain ⟨x, -, rfl⟩ := List.mem_map.1 ht; exact hnum x)
  simpa [Pj, Style.posnT, Style.json, bracket] using this
theorem Sj_val (p : List (List F64)) : IsVal U (Sj num p) :=
  IsVal.arr (by intro t ht; obtain ⟨x, -, rfl⟩ := List.mem_map.1 ht; exact Pj_val hnum x)
theorem Nj_val (p : List (List (List F64))) : IsVal U (Nj num p) :=
  IsVal.arr (by intro t ht; obtain ⟨x, -, rfl⟩ := List.mem_map.1 ht; exact Sj_val hnum x)
theorem N2j_val (p : List (List (List (List F64)))) : IsVal U (N2j num p) :=
  IsVal.arr (by intro t ht; obtain ⟨x, -, rfl⟩ := List.mem_map.1 ht; exact Nj_val hnum x)

theorem brackets_val : IsVal U (txt "[]") := ⟨1, .arr0 0 [] ws_none⟩

include hU

mutual
theorem jsonT_obj : ∀ (g : Geom), ExtraAll (QStr U) g → IsObj U (jsonT num g)
  | .point fl p, _ => by rw [jsonT]; exact featT_obj hU fl (objT_obj "Point" (by decide) (by decide) (Pj_val hnum _))
  | .line fl pts, _ => by rw [jsonT]; exact featT_obj hU fl (objT_obj "LineString" (by decide) (by decide) (Sj_val hnum _))
  | .poly fl pl, _ => by rw [jsonT]; exact featT_obj hU fl (objT_obj "Polygon" (by decide) (by decide) (Nj_val hnum _))
  | .gpoint fl p z m x, h => by
    rw [jsonT]; rw [ExtraAll] at h
    refine baseT_obj hU h (objT_obj "Point" (by decide) (by decide) ?_)
    split_ifs
    · exact brackets_val hnum
    · exact Pj_val hnum _
  | .gline fl l cs x, h => by
    rw [jsonT]; rw [ExtraAll] at h
    refine baseT_obj hU h (objT_obj "LineString" (by decide) (by decide) ?_)
    split_ifs
    · exact brackets_val hnum
    · exact Sj_val hnum _
  | .gpoly fl p cs x, h => by
    rw [jsonT]; rw [ExtraAll] at h
    refine baseT_obj hU h (objT_obj "Polygon" (by decide) (by decide) ?_)
    split_ifs
    · exact brackets_val hnum
    · exact Nj_val hnum _
  | .mpoint fl ps cs x, h => by
    rw [jsonT]; rw [ExtraAll] at h
    exact baseT_obj hU h (objT_obj "MultiPoint" (by decide) (by decide) (Sj_val hnum _))
  | .mline fl ls cs x, h => by
    rw [jsonT]; rw [ExtraAll] at h
    exact baseT_obj hU h (objT_obj "MultiLineString" (by decide) (by decide) (Nj_val hnum _))
  | .mpoly fl ps cs x, h => by
    rw [jsonT]; rw [ExtraAll] at h
    exact baseT_obj hU h (objT_obj "MultiPolygon" (by decide) (by decide) (N2j_val hnum _))
  | .coll fl hasMulti gs cs x, h => by
    rw [jsonT]; rw [ExtraAll] at h
    refine baseT_obj hU h.1 ?_
    have hv : IsVal U (bracket 0x5B#8 0x5D#8 (if hasMulti then jsonTs num gs else [])) := by
      apply IsVal.arr
      cases hasMulti with
      | true => exact jsonTs_val gs h.2
      | false => simp
    cases fl.isFeatureCol with
    | true =>
      refine ⟨_, (lit_mem (U := U) "type" (by decide) (str_val (qstr_plain (l := txt "FeatureCollection") (by decide)))).append (lit_mem (U := U) "features" (by decide) hv), ?_⟩
      have : txt "{\"type\":\"FeatureCollection\",\"features\":" = 0x7B#8 :: 0x22#8 :: (txt "type" ++ 0x22#8 :: 0x3A#8 :: 0x22#8 :: (txt "FeatureCollection" ++
        0x22#8 :: 0x2C#8 :: 0x22#8 :: (txt "features" ++ [0x22#8, 0x3A#8]))) := by decide
      rw [if_pos rfl, this]
      simp
    | false =>
      refine ⟨_, (lit_mem (U := U) "type" (by decide) (str_val (qstr_plain (l := txt "GeometryCollection") (by decide)))).append (lit_mem (U := U) "geometries" (by decide) hv), ?_⟩
      have : txt "{\"type\":\"GeometryCollection\",\"geometries\":" = 0x7B#8 :: 0x22#8 :: (txt "type" ++ 0x22#8 :: 0x3A#8 :: 0x22#8 :: (txt "GeometryCollection" ++
        0x22#8 :: 0x2C#8 :: 0x22#8 :: (txt "geometries" ++ [0x22#8, 0x3A#8]))) := by decide
      rw [if_neg (by decide), this]
      simp
  | .err _, _ => by
    rw [jsonT]
    have := objT_obj (U := U) "Point" (by decide) (by decide) (brackets_val hnum)
    have e : objT "Point" (txt "[]") = txt "{\"type\":\"Point\",\"coordinates\":[]}" := by decide
    rwa [e] at this
theorem jsonTs_val : ∀ (gs : List Geom), ExtraAlls (QStr U) gs → ∀ t ∈ jsonTs num gs, IsVal U t
  | [], _, t, ht => by simp [jsonTs] at ht
  | g :: gs, h, t, ht => by
    rw [ExtraAlls] at h
    rw [jsonTs] at ht
    rcases List.mem_cons.1 ht with rfl | ht
    · exact (jsonT_obj g h.1).val
    · exact jsonTs_val gs h.2 t ht
end
end

theorem utf8_noAscii : NoAscii Utf8 := by
  rintro l ⟨cp, ⟨h1, h2, -⟩, rfl⟩ b hb
  unfold utf8 at hb
  have hm : ∀ m, m < 256 → (BitVec.ofNat 8 m).toNat = m := fun m hm => by simp [Nat.mod_eq_of_lt hm]
  split_ifs at hb <;> simp only [List.mem_cons, List.not_mem_nil, or_false] at hb
  · rcases hb with rfl | rfl <;> rw [hm _ (by omega)] <;> omega
  · rcases hb with rfl | rfl | rfl <;> rw [hm _ (by omega)] <;> omega
  · rcases hb with rfl | rfl | rfl | rfl <;> rw [hm _ (by omega)] <;> omega

end Tg.Json
