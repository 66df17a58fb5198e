import Verif.Lemmas.GeojsonSafe
import Verif.Lemmas.GeojsonValid
import Verif.Spec.Geojson
/-! Walking through the parts of a JSON text: the elements of an array, the members of an object, and the names of members. -/
set_option linter.unusedSectionVars false
namespace Tg.Gp
open Json
open Spec.Json (Ws Val Elems Mems Chr Chrs Str Utf8 HexDigit IsNumber)
open Spec.Geojson (Items IsArr Pairs Spells Named Member TypeObj hexDigit)

/-- A value of JSON, with any number of levels. -/
abbrev JVal (v : List Byte) : Prop := ∃ n, Val Str n v

theorem peek_jval {v r : List Byte} (h : JVal v) (hr : Stop r) : Here (peekAny (v ++ r)) v r := by
  obtain ⟨n, h⟩ := h
  exact peek_val utf8_noAscii h hr

theorem peek_jstr {k : List Byte} (h : Str k) (r : List Byte) : Here (peekAny (k ++ r)) k r := peek_str utf8_noAscii h

theorem vals_level : ∀ {vs : List (List Byte)}, (∀ v ∈ vs, JVal v) → ∃ n, ∀ v ∈ vs, Val Str n v
  | [], _ => ⟨0, by simp⟩
  | v :: vs, h => by
    obtain ⟨n, hn⟩ := h v (by simp)
    obtain ⟨m, hm⟩ := vals_level (vs := vs) fun v hv => h v (by simp [hv])
    refine ⟨max n m, fun u hu => ?_⟩
    rcases List.mem_cons.1 hu with rfl | hu
    · exact val_up hn (by omega)
    · exact val_up (hm u hu) (by omega)

/-! ### Arrays -/

/-- From `j` on there are exactly the values `vs`. -/
def Walk : List (List Byte) → Option J → Prop
  | [], j => j = none
  | v :: vs, j => (∃ r, Here j v r) ∧ Walk vs (next j)

theorem items_elems {n : Nat} {vs : List (List Byte)} {l : List Byte} (h : Items vs l) (hv : ∀ v ∈ vs, Val Str n v) : Elems Str n l := by
  induction h with
  | one w v w' h1 h2 => exact .one _ _ _ _ h1 (hv v (by simp)) h2
  | cons w v w' l vs h1 h2 _ ih => exact .cons _ _ _ _ _ h1 (hv v (by simp)) h2 (ih fun u hu => hv u (by simp [hu]))

theorem elems_items : ∀ {n : Nat} {l : List Byte}, Elems Str n l → ∃ vs, vs ≠ [] ∧ Items vs l ∧ ∀ v ∈ vs, Val Str n v
  | _, _, .one _ w v w' h1 h2 h3 => ⟨[v], by simp, .one _ _ _ h1 h3, by simpa using h2⟩
  | _, _, .cons _ w v w' l h1 h2 h3 h4 => by
    obtain ⟨vs, -, hi, hv⟩ := elems_items h4
    exact ⟨v :: vs, by simp, .cons _ _ _ _ _ h1 h3 hi, by simpa using ⟨h2, hv⟩⟩

theorem arr_level {n : Nat} {vs : List (List Byte)} {t : List Byte} (h : IsArr vs t) (hv : ∀ v ∈ vs, Val Str n v) : Val Str (n + 1) t := by
  obtain ⟨l, ⟨rfl, hl⟩ | hl, rfl⟩ := h
  · exact .arr0 _ _ hl
  · exact .arr _ _ (items_elems hl hv)

theorem arr_jval {vs : List (List Byte)} {t : List Byte} (h : IsArr vs t) (hv : ∀ v ∈ vs, JVal v) : JVal t := by
  obtain ⟨n, hn⟩ := vals_level hv
  exact ⟨_, arr_level h hn⟩

theorem items_walk {vs : List (List Byte)} {l : List Byte} (h : Items vs l) (hv : ∀ v ∈ vs, JVal v) (r : List Byte) : Walk vs (peekAny (l ++ 0x5D#8 :: r)) := by
  induction h with
  | one w v w' h1 h2 =>
    have := peek_jval (r := w' ++ 0x5D#8 :: r) (hv v (by simp)) (stop_ws h2 (stop_byte (by decide) _))
    rw [← peek_ws h1] at this
    have e : w ++ (v ++ (w' ++ 0x5D#8 :: r)) = (w ++ (v ++ w')) ++ 0x5D#8 :: r := by simp
    rw [e] at this
    refine ⟨⟨_, this⟩, ?_⟩
    rw [this.next, peek_ws h2]
    simp [Walk, peekAny]
  | cons w v w' l vs h1 h2 _ ih =>
    have := peek_jval (r := w' ++ 0x2C#8 :: (l ++ 0x5D#8 :: r)) (hv v (by simp)) (stop_ws h2 (stop_byte (by decide) _))
    rw [← peek_ws h1] at this
    have e : w ++ (v ++ (w' ++ 0x2C#8 :: (l ++ 0x5D#8 :: r))) = (w ++ (v ++ (w' ++ 0x2C#8 :: l))) ++ 0x5D#8 :: r := by simp
    rw [e] at this
    refine ⟨⟨_, this⟩, ?_⟩
    rw [this.next, peek_ws h2, peek_skip (by simp)]
    exact ih fun u hu => hv u (by simp [hu])

/-- The elements of an array. -/
theorem arr_walk {vs : List (List Byte)} {t : List Byte} (h : IsArr vs t) (hv : ∀ v ∈ vs, JVal v) {j : Option J} {r : List Byte} (hj : Here j t r) : Walk vs (first j) := by
  obtain ⟨l, hl, rfl⟩ := h
  rw [hj.first rfl (.inr rfl)]
  have e : (l ++ [0x5D#8]) ++ r = l ++ 0x5D#8 :: r := by simp
  rw [e]
  rcases hl with ⟨rfl, hl⟩ | hl
  · rw [peek_ws hl]; simp [Walk, peekAny]
  · exact items_walk hl hv r

theorem arr_head {vs : List (List Byte)} {t : List Byte} (h : IsArr vs t) {j : Option J} {r : List Byte} (hj : Here j t r) : jtype j = .array := by
  obtain ⟨l, hl, rfl⟩ := h
  rw [jtype, hj.head rfl]; decide

/-! ### Objects -/

/-- The pair is the member. -/
def IsMem (p : Option J × Option J) (m : List Byte × List Byte) : Prop :=
  (∃ r, p.1 = peekAny (m.1 ++ r) ∧ Here p.1 m.1 r) ∧ ∃ r, p.2 = peekAny (m.2 ++ r) ∧ Here p.2 m.2 r

theorem pairs_mems {n : Nat} {ms : List (List Byte × List Byte)} {l : List Byte} (h : Pairs ms l) (hv : ∀ m ∈ ms, Str m.1 ∧ Val Str n m.2) : Mems Str n l := by
  induction h with
  | one w k w1 w2 v w3 h1 h2 h3 h4 => exact .one _ _ _ _ _ _ _ h1 (hv (k, v) (by simp)).1 h2 h3 (hv (k, v) (by simp)).2 h4
  | cons w k w1 w2 v w3 l ms h1 h2 h3 h4 _ ih =>
    exact .cons _ _ _ _ _ _ _ _ h1 (hv (k, v) (by simp)).1 h2 h3 (hv (k, v) (by simp)).2 h4 (ih fun u hu => hv u (by simp [hu]))

theorem mems_members : ∀ {n : Nat} {l : List Byte}, Mems Str n l → ∃ ms, Pairs ms l ∧ ∀ m ∈ ms, Str m.1 ∧ Val Str n m.2
  | _, _, .one _ w k w1 w2 v w3 h1 h2 h3 h4 h5 h6 => ⟨[(k, v)], .one _ _ _ _ _ _ h1 h3 h4 h6, by simpa using ⟨h2, h5⟩⟩
  | _, _, .cons _ w k w1 w2 v w3 l h1 h2 h3 h4 h5 h6 h7 => by
    obtain ⟨ms, hi, hm⟩ := mems_members h7
    refine ⟨(k, v) :: ms, .cons _ _ _ _ _ _ _ _ h1 h3 h4 h6 hi, ?_⟩
    intro m hm'
    rcases List.mem_cons.1 hm' with rfl | hm'
    · exact ⟨h2, h5⟩
    · exact hm m hm'

theorem obj_level {n : Nat} {ms : List (List Byte × List Byte)} {t : List Byte} (h : Spec.Geojson.IsObj ms t) (hv : ∀ m ∈ ms, Val Str n m.2) : Val Str (n + 1) t := by
  obtain ⟨hm, l, ⟨rfl, hl⟩ | hl, rfl⟩ := h
  · exact .obj0 _ _ hl
  · exact .obj _ _ (pairs_mems hl fun m h => ⟨(hm m h).1, hv m h⟩)

theorem obj_jval {ms : List (List Byte × List Byte)} {t : List Byte} (h : Spec.Geojson.IsObj ms t) : JVal t := by
  obtain ⟨n, hn⟩ := vals_level (vs := ms.map (·.2)) fun v hv => by
    obtain ⟨m, hm, rfl⟩ := List.mem_map.1 hv
    exact (h.1 m hm).2
  exact ⟨_, obj_level h fun m hm => hn _ (List.mem_map.2 ⟨m, hm, rfl⟩)⟩

theorem pairs_loop {ms : List (List Byte × List Byte)} {l : List Byte} (h : Pairs ms l) (hv : ∀ m ∈ ms, Str m.1 ∧ JVal m.2) (r : List Byte) :
    ∀ f, l.length ≤ f → List.Forall₂ IsMem (pairsLoop f (peekAny (l ++ 0x7D#8 :: r))) ms := by
  induction h with
  | one w k w1 w2 v w3 h1 h2 h3 h4 =>
    intro f hf
    obtain ⟨hs, hj⟩ := hv (k, v) (by simp)
    dsimp only at hs hj
    have ek : peekAny ((w ++ (k ++ (w1 ++ 0x3A#8 :: (w2 ++ (v ++ w3))))) ++ 0x7D#8 :: r) = peekAny (k ++ (w1 ++ 0x3A#8 :: (w2 ++ (v ++ (w3 ++ 0x7D#8 :: r))))) := by
      rw [List.append_assoc, peek_ws h1]; simp
    have hk := peek_jstr hs (w1 ++ 0x3A#8 :: (w2 ++ (v ++ (w3 ++ 0x7D#8 :: r))))
    rw [ek]
    have en : next (peekAny (k ++ (w1 ++ 0x3A#8 :: (w2 ++ (v ++ (w3 ++ 0x7D#8 :: r)))))) = peekAny (v ++ (w3 ++ 0x7D#8 :: r)) := by
      rw [hk.next, peek_ws h2, peek_skip (by simp), peek_ws h3]
    have hv := peek_jval hj (stop_ws h4 (stop_byte (b := 0x7D#8) (by decide) r))
    have hn : next (next (peekAny (k ++ (w1 ++ 0x3A#8 :: (w2 ++ (v ++ (w3 ++ 0x7D#8 :: r))))))) = none := by
      rw [en, hv.next, peek_ws h4]; simp [peekAny]
    obtain ⟨f, rfl⟩ : ∃ f', f = f' + 1 := ⟨f - 1, by simp at hf; omega⟩
    obtain ⟨i, hi, -⟩ := id hk
    have hp : IsMem (some i, next (some i)) (k, v) := by
      rw [← hi]
      exact ⟨⟨_, rfl, hk⟩, ⟨_, en, by rw [en]; exact hv⟩⟩
    rw [hi] at hn ⊢
    rw [pairsLoop, hn]
    refine .cons hp ?_
    cases f <;> exact .nil
  | cons w k w1 w2 v w3 l ms h1 h2 h3 h4 _ ih =>
    intro f hf
    obtain ⟨hs, hj⟩ := hv (k, v) (by simp)
    dsimp only at hs hj
    have ek : peekAny ((w ++ (k ++ (w1 ++ 0x3A#8 :: (w2 ++ (v ++ (w3 ++ 0x2C#8 :: l)))))) ++ 0x7D#8 :: r) =
        peekAny (k ++ (w1 ++ 0x3A#8 :: (w2 ++ (v ++ (w3 ++ 0x2C#8 :: (l ++ 0x7D#8 :: r)))))) := by
      rw [List.append_assoc, peek_ws h1]; simp
    have hk := peek_jstr hs (w1 ++ 0x3A#8 :: (w2 ++ (v ++ (w3 ++ 0x2C#8 :: (l ++ 0x7D#8 :: r)))))
    rw [ek]
    have en : next (peekAny (k ++ (w1 ++ 0x3A#8 :: (w2 ++ (v ++ (w3 ++ 0x2C#8 :: (l ++ 0x7D#8 :: r))))))) = peekAny (v ++ (w3 ++ 0x2C#8 :: (l ++ 0x7D#8 :: r))) := by
      rw [hk.next, peek_ws h2, peek_skip (by simp), peek_ws h3]
    have hv' := peek_jval hj (stop_ws h4 (stop_byte (b := 0x2C#8) (by decide) (l ++ 0x7D#8 :: r)))
    have hn : next (next (peekAny (k ++ (w1 ++ 0x3A#8 :: (w2 ++ (v ++ (w3 ++ 0x2C#8 :: (l ++ 0x7D#8 :: r)))))))) = peekAny (l ++ 0x7D#8 :: r) := by
      rw [en, hv'.next, peek_ws h4, peek_skip (by simp)]
    obtain ⟨f, rfl⟩ : ∃ f', f = f' + 1 := ⟨f - 1, by simp at hf; omega⟩
    obtain ⟨i, hi, -⟩ := id hk
    have hp : IsMem (some i, next (some i)) (k, v) := by
      rw [← hi]
      exact ⟨⟨_, rfl, hk⟩, ⟨_, en, by rw [en]; exact hv'⟩⟩
    rw [hi] at hn ⊢
    rw [pairsLoop, hn]
    refine .cons hp (ih (fun u hu => hv u (by simp [hu])) f ?_)
    simp at hf; omega

/-- The members of an object. -/
theorem obj_pairs {ms : List (List Byte × List Byte)} {t : List Byte} (h : Spec.Geojson.IsObj ms t) {j : Option J} {r : List Byte} (hj : Here j t r) :
    List.Forall₂ IsMem (pairs j) ms := by
  obtain ⟨hm, l, hl, rfl⟩ := h
  obtain ⟨i, rfl, hraw, -⟩ := id hj
  rw [pairs, hj.first rfl (.inl rfl)]
  have e : (l ++ [0x7D#8]) ++ r = l ++ 0x7D#8 :: r := by simp
  rw [e]
  rcases hl with ⟨rfl, hl⟩ | hl
  · rw [peek_ws hl]; simp [peekAny, pairsLoop]
  · exact pairs_loop hl hm r _ (by rw [hraw]; simp; omega)

theorem obj_head {ms : List (List Byte × List Byte)} {t : List Byte} (h : Spec.Geojson.IsObj ms t) {j : Option J} {r : List Byte} (hj : Here j t r) :
    jtype j = .object ∧ isObj j = true := by
  obtain ⟨-, l, -, rfl⟩ := h
  rw [jtype, isObj, hj.head rfl]; decide

theorem get_find (key : List Byte) (f : Nat) : ∀ j, objGetLoop f key j = ((pairsLoop f j).find? fun p => strEq p.1 key).bind (·.2) := by
  induction f with
  | zero => intro j; rfl
  | succ f ih =>
    intro j
    cases j with
    | none => rfl
    | some j =>
      rw [objGetLoop, pairsLoop, List.find?_cons]
      split_ifs with h
      · simp only [h]; rfl
      · simp only [h]; rw [ih]

theorem objGet_find {j : Option J} (h : isObj j = true) (key : List Byte) : objGet j key = ((pairs j).find? fun p => strEq p.1 key).bind (·.2) := by
  unfold objGet pairs; rw [if_pos h, get_find]

/-! ### Names -/

theorem hexVal_eq {b : Byte} (h : HexDigit b) : hexVal b = hexDigit b := by
  unfold hexVal hexDigit HexDigit at *
  split_ifs <;> omega

theorem hexVal_lt (b : Byte) : hexVal b < 16 := by unfold hexVal; split_ifs <;> omega

theorem unescape_plain {b : Byte} (h : b ≠ 0x5C#8) (t : List Byte) : unescape (b :: t) = b :: unescape t := by
  rw [unescape.eq_def]
  split <;> simp_all

theorem unescape_plains {l : List Byte} (h : ∀ b ∈ l, b ≠ 0x5C#8) (t : List Byte) : unescape (l ++ t) = l ++ unescape t := by
  induction l with
  | nil => rfl
  | cons b l ih => rw [List.cons_append, unescape_plain (h b (by simp)), ih fun x hx => h x (by simp [hx])]; rfl

theorem decode_high (a b : Nat) : 0x80 ≤ decodeCp a b := by
  unfold decodeCp
  split_ifs
  · have : 65536 ≤ b - 56320 + 65536 := by omega
    exact le_trans (by omega) (le_trans this Nat.right_le_or)
  · omega

theorem unescape_esc {b : Byte} (h : b ≠ 0x75#8) (t : List Byte) : unescape (0x5C#8 :: b :: t) = (escChr b).toList ++ unescape t :=
  unescape.eq_5 _ _ (fun _ _ _ _ _ _ _ _ _ e => absurd e h) (fun _ _ _ _ _ e => absurd e h) h

/-- An escaped code, with what can follow. -/
theorem unescape_u (a b c d : Byte) (t : List Byte) :
    (∃ n t', unescape (0x5C#8 :: 0x75#8 :: a :: b :: c :: d :: t) = encodeCp n ++ t' ∧ 0x80 ≤ n ∧ isSurr (hex4 a b c d) = true) ∨
    unescape (0x5C#8 :: 0x75#8 :: a :: b :: c :: d :: t) = encodeCp (hex4 a b c d) ++ unescape t := by
  by_cases h : ∃ g1 g2 g3 g4 t', t = 0x5C#8 :: 0x75#8 :: g1 :: g2 :: g3 :: g4 :: t'
  · obtain ⟨g1, g2, g3, g4, t', rfl⟩ := h
    rw [unescape.eq_2]
    by_cases hs : isSurr (hex4 a b c d) = true
    · left
      rw [if_pos hs]
      exact ⟨_, _, rfl, decode_high _ _, hs⟩
    · right; rw [if_neg hs]
  · right
    exact unescape.eq_3 _ _ _ _ _ fun g1 g2 g3 g4 t' e => h ⟨g1, g2, g3, g4, t', e⟩

theorem not_surr {n : Nat} (h : n < 0x80) : isSurr n = false := by
  simp [isSurr]; omega

theorem unescape_ascii {a b c d : Byte} (h : hex4 a b c d < 0x80) (t : List Byte) :
    unescape (0x5C#8 :: 0x75#8 :: a :: b :: c :: d :: t) = BitVec.ofNat 8 (hex4 a b c d) :: unescape t := by
  have he : encodeCp (hex4 a b c d) = [BitVec.ofNat 8 (hex4 a b c d)] := by simp [encodeCp, h]
  rcases unescape_u a b c d t with ⟨n, t', -, -, hs⟩ | e
  · rw [not_surr h] at hs; simp at hs
  · rw [e, he]; rfl

theorem esc_table {b c : Byte} (h : (b, c) ∈ ([(0x22, 0x22), (0x5C, 0x5C), (0x2F, 0x2F), (0x62, 0x08), (0x66, 0x0C), (0x6E, 0x0A), (0x72, 0x0D), (0x74, 0x09)] : List (Byte × Byte))) :
    b ≠ 0x75#8 ∧ escChr b = some c := by
  simp only [List.mem_cons, Prod.mk.injEq, List.not_mem_nil, or_false] at h
  rcases h with ⟨rfl, rfl⟩ | ⟨rfl, rfl⟩ | ⟨rfl, rfl⟩ | ⟨rfl, rfl⟩ | ⟨rfl, rfl⟩ | ⟨rfl, rfl⟩ | ⟨rfl, rfl⟩ | ⟨rfl, rfl⟩ <;> decide

theorem spells_unescape {cs s : List Byte} (h : Spells cs s) : unescape cs = s := by
  induction h with
  | nil => rw [unescape]
  | plain b cs s hb _ ih => rw [unescape_plain hb, ih]
  | esc b c cs s hb _ ih =>
    obtain ⟨h1, h2⟩ := esc_table hb
    rw [unescape_esc h1, h2, ih]; rfl
  | uni a b c d e cs s ha hb hc hd he hv _ ih =>
    have e4 : hex4 a b c d = e.toNat := by rw [hex4, hexVal_eq ha, hexVal_eq hb, hexVal_eq hc, hexVal_eq hd, hv]
    rw [unescape_ascii (by omega), e4, ih, BitVec.ofNat_toNat]; simp

/-- The first byte of what is not ASCII. -/
theorem encode_high {n : Nat} (h : 0x80 ≤ n) : ∃ b t, encodeCp n = b :: t ∧ 0x80 ≤ b.toNat := by
  unfold encodeCp
  dsimp only
  rw [if_neg (by omega)]
  by_cases hb : 1114111 < n
  · have : (decide (1114111 < n) || isSurr n) = true := by simp [hb]
    rw [this]
    rw [if_neg (by omega)]
    exact ⟨_, _, rfl, by rw [if_pos rfl]; decide⟩
  · split_ifs <;> refine ⟨_, _, rfl, ?_⟩ <;> simp only [BitVec.toNat_ofNat] <;> omega

theorem unescape_uni (a b c d : Byte) (t : List Byte) : (hex4 a b c d < 0x80 ∧ unescape (0x5C#8 :: 0x75#8 :: a :: b :: c :: d :: t) = BitVec.ofNat 8 (hex4 a b c d) :: unescape t) ∨
    ∃ x u, unescape (0x5C#8 :: 0x75#8 :: a :: b :: c :: d :: t) = x :: u ∧ 0x80 ≤ x.toNat := by
  by_cases h : hex4 a b c d < 0x80
  · exact .inl ⟨h, unescape_ascii h t⟩
  · right
    rcases unescape_u a b c d t with ⟨n, t', e, hn, -⟩ | e
    · obtain ⟨x, u, e1, e2⟩ := encode_high hn
      exact ⟨_, _, by rw [e, e1]; rfl, e2⟩
    · obtain ⟨x, u, e1, e2⟩ := encode_high (n := hex4 a b c d) (by omega)
      exact ⟨_, _, by rw [e, e1]; rfl, e2⟩

theorem utf8_ne {l : List Byte} (h : Utf8 l) : l ≠ [] := by
  obtain ⟨cp, -, rfl⟩ := h
  unfold Spec.Json.utf8
  split_ifs <;> simp

theorem unescape_spells {cs : List Byte} (h : Chrs Utf8 cs) : ∀ {s : List Byte}, (∀ b ∈ s, b.toNat < 0x80) → unescape cs = s → Spells cs s := by
  induction h with
  | nil => intro s _ he; rw [unescape] at he; subst he; exact .nil
  | cons c l hc _ ih =>
    intro s hs he
    cases hc with
    | ascii b h1 h2 h3 h4 =>
      rw [List.singleton_append, unescape_plain h4] at he
      subst he
      exact .plain _ _ _ h4 (ih (fun x hx => hs x (by simp [hx])) rfl)
    | multi _ hu =>
      have hh := utf8_noAscii _ hu
      rw [unescape_plains fun b hb => (high_ne (hh b hb)).2] at he
      cases c with
      | nil => exact absurd rfl (utf8_ne hu)
      | cons x c =>
        have := hh x (by simp)
        have := hs x (by rw [← he]; simp)
        omega
    | esc b hb =>
      simp only [List.mem_cons, List.not_mem_nil, or_false] at hb
      have key : ∃ c, escChr b = some c ∧ b ≠ 0x75#8 ∧
          (b, c) ∈ ([(0x22, 0x22), (0x5C, 0x5C), (0x2F, 0x2F), (0x62, 0x08), (0x66, 0x0C), (0x6E, 0x0A), (0x72, 0x0D), (0x74, 0x09)] : List (Byte × Byte)) := by
        rcases hb with rfl | rfl | rfl | rfl | rfl | rfl | rfl | rfl <;> exact ⟨_, rfl, by decide, by decide⟩
      obtain ⟨c, h1, h2, h3⟩ := key
      change unescape (0x5C#8 :: b :: l) = s at he
      rw [unescape_esc h2, h1] at he
      change c :: unescape l = s at he
      subst he
      exact .esc _ _ _ _ h3 (ih (fun x hx => hs x (by simp [hx])) rfl)
    | uesc a b c d ha hb hc hd =>
      change unescape (0x5C#8 :: 0x75#8 :: a :: b :: c :: d :: l) = s at he
      rcases unescape_uni a b c d l with ⟨h1, h2⟩ | ⟨x, u, h1, h2⟩
      · rw [h2] at he
        subst he
        have e4 : hex4 a b c d = hexDigit a * 4096 + hexDigit b * 256 + hexDigit c * 16 + hexDigit d := by
          rw [hex4, hexVal_eq ha, hexVal_eq hb, hexVal_eq hc, hexVal_eq hd]
        refine .uni _ _ _ _ _ _ _ ha hb hc hd ?_ ?_ (ih (fun x hx => hs x (by simp [hx])) rfl)
        · exact hs _ (by simp)
        · rw [← e4, BitVec.toNat_ofNat]; omega
      · rw [h1] at he
        have := hs x (by rw [← he]; simp)
        omega

/-- The flag for escapes. -/
theorem chrs_esc {cs : List Byte} (h : Chrs Utf8 cs) : ∀ (esc : Bool) (r : List Byte), (countStr false esc (cs ++ 0x22#8 :: r)).2 = false → esc = false ∧ ∀ b ∈ cs, b ≠ 0x5C#8 := by
  induction h with
  | nil => intro esc r h; simp [countStr] at h; exact ⟨h, by simp⟩
  | cons c l hc _ ih =>
    intro esc r h
    have plain : ∀ {p : List Byte}, Plain p → p = c → (esc = false ∧ ∀ b ∈ c ++ l, b ≠ 0x5C#8) := by
      rintro p hp rfl
      by_cases hne : p = []
      · subst hne; exact ih esc r h
      · rw [List.append_assoc, countStr_plain hp hne] at h
        obtain ⟨i1, i2⟩ := ih esc r h
        refine ⟨i1, fun b hb => ?_⟩
        rcases List.mem_append.1 hb with hb | hb
        · exact (hp b hb).2
        · exact i2 b hb
    cases hc with
    | ascii b h1 h2 h3 h4 => exact plain (p := [b]) (by intro x hx; simp at hx; subst hx; exact ⟨h3, h4⟩) rfl
    | multi _ hu => exact plain (fun b hb => high_ne (utf8_noAscii _ hu b hb)) rfl
    | esc b hb =>
      exfalso
      simp only [List.mem_cons, List.not_mem_nil, or_false] at hb
      have : (countStr false true (l ++ 0x22#8 :: r)).2 = false := by
        rcases hb with rfl | rfl | rfl | rfl | rfl | rfl | rfl | rfl <;> simpa [countStr] using h
      have := (ih true r this).1
      simp at this
    | uesc a b c d ha hb hc hd =>
      exfalso
      have hx : ∀ {x : Byte}, HexDigit x → (x == 0x22#8) = false ∧ (x == 0x5C#8) = false := by
        intro x hx
        constructor <;> (rw [beq_eq_false_iff_ne]; rintro rfl; revert hx; simp [HexDigit])
      have : (countStr false true (l ++ 0x22#8 :: r)).2 = false := by
        simpa [countStr, hx ha, hx hb, hx hc, hx hd] using h
      have := (ih true r this).1
      simp at this

/-- A string token after its opening quote. -/
theorem peek_quote (t : List Byte) : peekAny (0x22#8 :: t) = some ⟨0x22#8 :: t, (countStr false false t).1 + 1, (countStr false false t).2⟩ := by
  rw [peekAny]; simp

/-- What a string token says. -/
theorem str_text {cs : List Byte} (h : Chrs Utf8 cs) (r : List Byte) {j : Option J} (hj : j = peekAny ((0x22#8 :: (cs ++ [0x22#8])) ++ r)) :
    ∃ i, j = some i ∧ isStr j = true ∧ (if i.esc then unescape (((rawOf j).drop 1).take (rawLen j - 2)) else ((rawOf j).drop 1).take (rawLen j - 2)) = unescape cs := by
  have hh : Here j (0x22#8 :: (cs ++ [0x22#8])) r := by rw [hj]; exact peek_jstr ⟨cs, h, rfl⟩ r
  have e : (0x22#8 :: (cs ++ [0x22#8])) ++ r = 0x22#8 :: (cs ++ 0x22#8 :: r) := by simp
  rw [e, peek_quote] at hj
  refine ⟨_, hj, by rw [isStr, hh.head rfl]; rfl, ?_⟩
  have hb : ((rawOf j).drop 1).take (rawLen j - 2) = cs := by rw [hh.raw, hh.len]; simp
  rw [hb]
  dsimp only
  split_ifs with he
  · rfl
  · have := (chrs_esc h false r (by simpa using he)).2
    have := unescape_plains this []
    rw [List.append_nil, unescape] at this
    rw [this]; simp

theorem strEq_named {k r : List Byte} (h : Str k) {s : String} (hs : ∀ b ∈ txt s, b.toNat < 0x80) {j : Option J} (hj : j = peekAny (k ++ r)) :
    strEq j (txt s) = true ↔ Named k s := by
  obtain ⟨cs, hc, rfl⟩ := h
  obtain ⟨i, hi, h1, h2⟩ := str_text hc r hj
  have : strEq j (txt s) = (unescape cs == txt s) := by
    rw [strEq, h1, ← h2]
    subst hi
    simp only [Bool.not_true, Bool.false_eq_true, if_false]
    split_ifs <;> rfl
  rw [this, beq_iff_eq]
  constructor
  · intro h; exact ⟨cs, rfl, unescape_spells hc hs h⟩
  · rintro ⟨cs', e, h⟩
    have e : cs = cs' := by simpa using e
    subst e
    exact spells_unescape h

theorem copyStr_named {k r : List Byte} (h : Str k) {s : String} (hn : Named k s) (hl : (txt s).length ≤ 23) (h0 : ∀ b ∈ txt s, b ≠ 0#8) {j : Option J} (hj : j = peekAny (k ++ r)) :
    copyStr j 24 = txt s := by
  obtain ⟨cs, hc, rfl⟩ := h
  obtain ⟨i, hi, h1, h2⟩ := str_text hc r hj
  obtain ⟨cs', e, hsp⟩ := hn
  have e : cs = cs' := by simpa using e
  subst e
  rw [spells_unescape hsp] at h2
  have : copyStr j 24 = ((txt s).take 23).takeWhile (· != 0#8) := by
    rw [← h2]
    subst hi
    unfold copyStr
    simp only [h1, if_true]
  rw [this, List.take_of_length_le hl]
  have key : ∀ l : List Byte, (∀ b ∈ l, b ≠ 0#8) → l.takeWhile (· != 0#8) = l := by
    intro l
    induction l with
    | nil => intro _; rfl
    | cons b l ih =>
      intro h
      have : (b != 0#8) = true := by simpa using h b (by simp)
      rw [List.takeWhile_cons, this, if_pos rfl, ih fun x hx => h x (by simp [hx])]
  exact key _ h0

end Tg.Gp
