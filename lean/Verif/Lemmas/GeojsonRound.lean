import Verif.Lemmas.GeojsonDepth
import Verif.Lemmas.GeojsonValid
import Verif.Lemmas.WktWhole
/-! The writer's GeoJSON is GeoJSON of the geometry. -/
set_option linter.unusedSectionVars false
namespace Tg.Gp
open Spec Spec.Geojson Spec.Json Json

/-- ASCII without the backslash. -/
abbrev Tame (b : Byte) : Prop := b.toNat < 0x80 ∧ b ≠ 0x5C#8
/-- JSON of at most so many levels, in ASCII, without escapes. -/
def Fits (n : Nat) (t : List Byte) : Prop := Val Str n t ∧ ∀ b ∈ t, Tame b

theorem Fits.up {n m : Nat} {t : List Byte} (h : Fits n t) (hn : n ≤ m) : Fits m t := ⟨val_up h.1 hn, h.2⟩

theorem join_items : ∀ (t : List Byte) (ts : List (List Byte)), Items (t :: ts) (join 0x2C#8 (t :: ts))
  | t, [] => by simpa [join, eachAfter] using Items.one [] t [] ws_none ws_none
  | t, u :: us => by
    have := Items.cons [] t [] _ _ ws_none ws_none (join_items u us)
    simpa [join, eachAfter] using this

theorem bracket_arr (ts : List (List Byte)) : IsArr ts (bracket 0x5B#8 0x5D#8 ts) := by
  refine ⟨join 0x2C#8 ts, ?_, rfl⟩
  cases ts with
  | nil => exact .inl ⟨rfl, ws_none⟩
  | cons t ts => exact .inr (join_items t ts)

theorem each_bytes {s b : Byte} : ∀ {ts : List (List Byte)}, b ∈ eachAfter s ts → b = s ∨ ∃ t ∈ ts, b ∈ t
  | [], h => by simp [eachAfter] at h
  | t :: ts, h => by
    simp only [eachAfter, List.mem_cons, List.mem_append] at h
    rcases h with h | h | h
    · exact .inl h
    · exact .inr ⟨t, by simp, h⟩
    · rcases each_bytes h with h | ⟨u, hu, h⟩
      · exact .inl h
      · exact .inr ⟨u, by simp [hu], h⟩

theorem bracket_bytes {b lb rb : Byte} {ts : List (List Byte)} (h : b ∈ bracket lb rb ts) : b = lb ∨ b = rb ∨ b = 0x2C#8 ∨ ∃ t ∈ ts, b ∈ t := by
  simp only [bracket, List.mem_cons, List.mem_append, List.not_mem_nil, or_false] at h
  rcases h with h | h | h
  · exact .inl h
  · cases ts with
    | nil => simp [join] at h
    | cons t ts =>
      simp only [join, List.mem_append] at h
      rcases h with h | h
      · exact .inr (.inr (.inr ⟨t, by simp, h⟩))
      · rcases each_bytes h with h | ⟨u, hu, h⟩
        · exact .inr (.inr (.inl h))
        · exact .inr (.inr (.inr ⟨u, by simp [hu], h⟩))
  · exact .inr (.inl h)

theorem bracket_fits {n : Nat} {ts : List (List Byte)} (h : ∀ t ∈ ts, Fits n t) : Fits (n + 1) (bracket 0x5B#8 0x5D#8 ts) := by
  refine ⟨arr_level (bracket_arr ts) fun t ht => (h t ht).1, fun b hb => ?_⟩
  rcases bracket_bytes hb with rfl | rfl | rfl | ⟨t, ht, hb⟩
  · decide
  · decide
  · decide
  · exact (h t ht).2 b hb

theorem list_text {α : Type} {I : α → List Byte → Prop} {f : α → List Byte} {l : List α} (h : ∀ a ∈ l, I a (f a)) : IsList I l (bracket 0x5B#8 0x5D#8 (l.map f)) := by
  refine ⟨_, bracket_arr _, ?_⟩
  induction l with
  | nil => exact .nil
  | cons a l ih => exact .cons (h a (by simp)) (ih fun x hx => h x (by simp [hx]))

theorem list_fits {α : Type} {n : Nat} {f : α → List Byte} {l : List α} (h : ∀ a ∈ l, Fits n (f a)) : Fits (n + 1) (bracket 0x5B#8 0x5D#8 (l.map f)) :=
  bracket_fits fun t ht => by obtain ⟨a, ha, rfl⟩ := List.mem_map.1 ht; exact h a ha

theorem number_ascii {l : List Byte} (h : IsNumber l) : ∀ b ∈ l, Tame b := by
  obtain ⟨s, i, f, e, rfl, hs, hi, hf, he⟩ := h
  have hd : ∀ {d : Byte}, Digit d → Tame d := fun {d} h => by
    unfold Digit at h
    refine ⟨by omega, ?_⟩
    rintro rfl
    simp at h
  intro b hb
  simp only [List.mem_append] at hb
  rcases hb with hb | hb | hb | hb
  · rcases hs with rfl | rfl
    · simp at hb
    · rw [List.mem_singleton] at hb; subst hb; decide
  · rcases hi with rfl | ⟨d, ds, rfl, h1, -, h2⟩
    · rw [List.mem_singleton] at hb; subst hb; decide
    · rcases List.mem_cons.1 hb with rfl | hb
      · exact hd h1
      · exact hd (h2 b hb)
  · rcases hf with rfl | ⟨d, ds, rfl, h1, h2⟩
    · simp at hb
    · rcases List.mem_cons.1 hb with rfl | hb
      · decide
      · rcases List.mem_cons.1 hb with rfl | hb
        · exact hd h1
        · exact hd (h2 b hb)
  · rcases he with rfl | ⟨c, s, d, ds, rfl, hc, hs, h1, h2⟩
    · simp at hb
    · simp only [List.mem_cons, List.mem_append] at hb
      rcases hb with rfl | hb | rfl | hb
      · rcases hc with rfl | rfl <;> decide
      · rcases hs with rfl | rfl | rfl
        · simp at hb
        · rw [List.mem_singleton] at hb; subst hb; decide
        · rw [List.mem_singleton] at hb; subst hb; decide
      · exact hd h1
      · exact hd (h2 b hb)

theorem num_fits {l : List Byte} (h : IsNumber l) : Fits 1 l := ⟨.num _ _ h, number_ascii h⟩

/-! ### Objects -/

/-- The characters of a name. -/
abbrev Plain (l : List Byte) : Prop := ∀ b ∈ l, 0x20 ≤ b.toNat ∧ b.toNat < 0x80 ∧ b ≠ 0x22#8 ∧ b ≠ 0x5C#8

theorem plain_str {cs : List Byte} (h : Plain cs) : Str (0x22#8 :: (cs ++ [0x22#8])) := by
  refine ⟨cs, ?_, rfl⟩
  induction cs with
  | nil => exact .nil
  | cons b cs ih =>
    obtain ⟨h1, h2, h3, h4⟩ := h b (by simp)
    exact .cons [b] cs (.ascii b h1 h2 h3 h4) (ih fun x hx => h x (by simp [hx]))

theorem plain_fits {cs : List Byte} (h : Plain cs) : Fits 1 (0x22#8 :: (cs ++ [0x22#8])) := by
  refine ⟨.str _ _ (plain_str h), fun b hb => ?_⟩
  simp only [List.mem_cons, List.mem_append, List.not_mem_nil, or_false] at hb
  rcases hb with rfl | hb | rfl
  · decide
  · exact ⟨(h b hb).2.1, (h b hb).2.2.2⟩
  · decide

theorem spells_self {cs : List Byte} (h : Plain cs) : Spells cs cs := by
  induction cs with
  | nil => exact .nil
  | cons b cs ih => exact .plain b _ _ (h b (by simp)).2.2.2 (ih fun x hx => h x (by simp [hx]))

theorem named_self {s : String} (h : Plain (txt s)) : Named (0x22#8 :: (txt s ++ [0x22#8])) s := ⟨_, rfl, spells_self h⟩

theorem named_other {s s' : String} (h : Plain (txt s)) (hn : txt s ≠ txt s') : ¬ Named (0x22#8 :: (txt s ++ [0x22#8])) s' := by
  rintro ⟨cs, e, hs⟩
  have e : txt s = cs := by simpa using e
  subst e
  have := spells_unescape hs
  rw [spells_unescape (spells_self h)] at this
  exact hn this

theorem obj_eq (name member : String) (c : List Byte) : obj name member c = 0x7B#8 ::
    ((0x22#8 :: (txt "type" ++ [0x22#8])) ++ 0x3A#8 :: ((0x22#8 :: (txt name ++ [0x22#8])) ++ 0x2C#8 :: ((0x22#8 :: (txt member ++ [0x22#8])) ++ 0x3A#8 :: c)) ++ [0x7D#8]) := by
  unfold obj
  rw [show txt "{\"type\":\"" = 0x7B#8 :: 0x22#8 :: (txt "type" ++ [0x22#8, 0x3A#8, 0x22#8]) from by decide, show txt "\",\"" = [0x22#8, 0x2C#8, 0x22#8] from by decide,
    show txt "\":" = [0x22#8, 0x3A#8] from by decide, show txt "}" = [0x7D#8] from by decide]
  simp only [List.cons_append, List.append_assoc, List.nil_append]

theorem obj_two (name member : String) (c : List Byte) : Pairs [(0x22#8 :: (txt "type" ++ [0x22#8]), 0x22#8 :: (txt name ++ [0x22#8])), (0x22#8 :: (txt member ++ [0x22#8]), c)]
    ((0x22#8 :: (txt "type" ++ [0x22#8])) ++ 0x3A#8 :: ((0x22#8 :: (txt name ++ [0x22#8])) ++ 0x2C#8 :: ((0x22#8 :: (txt member ++ [0x22#8])) ++ 0x3A#8 :: c))) := by
  have := Pairs.cons [] (0x22#8 :: (txt "type" ++ [0x22#8])) [] [] (0x22#8 :: (txt name ++ [0x22#8])) [] _ _ ws_none ws_none ws_none ws_none
    (Pairs.one [] (0x22#8 :: (txt member ++ [0x22#8])) [] [] c [] ws_none ws_none ws_none ws_none)
  simpa using this

theorem type_plain : Plain (txt "type") := by decide

theorem obj_type {name member : String} {c : List Byte} {n : Nat} (h1 : Plain (txt name)) (h2 : Plain (txt member)) (h3 : txt member ≠ txt "type") (hc : Val Str n c) :
    TypeObj name member c (obj name member c) := by
  refine ⟨_, _, ⟨?_, _, .inr (obj_two name member c), obj_eq name member c⟩, ⟨[], _, _, rfl, named_self type_plain, ?_⟩, named_self h1, ⟨[_], _, [], rfl, named_self h2, ?_⟩⟩
  · intro m hm
    simp only [List.mem_cons, List.not_mem_nil, or_false] at hm
    rcases hm with rfl | rfl
    · exact ⟨plain_str type_plain, 1, (plain_fits h1).1⟩
    · exact ⟨plain_str h2, n, hc⟩
  · intro m hm
    simp only [List.nil_append, List.mem_cons, List.not_mem_nil, or_false] at hm
    subst hm
    exact named_other h2 h3
  · intro m hm
    simp only [List.append_nil, List.mem_cons, List.not_mem_nil, or_false] at hm
    subst hm
    exact named_other type_plain (Ne.symm h3)

theorem obj_fits {name member : String} {c : List Byte} {n : Nat} (h1 : Plain (txt name)) (h2 : Plain (txt member)) (hc : Fits (n + 1) c) : Fits (n + 2) (obj name member c) := by
  refine ⟨?_, ?_⟩
  · rw [obj_eq]
    refine .obj _ _ (pairs_mems (obj_two name member c) ?_)
    intro m hm
    simp only [List.mem_cons, List.not_mem_nil, or_false] at hm
    rcases hm with rfl | rfl
    · exact ⟨plain_str type_plain, val_up (plain_fits h1).1 (by omega)⟩
    · exact ⟨plain_str h2, hc.1⟩
  · rw [obj_eq]
    intro b hb
    simp only [List.mem_cons, List.mem_append, List.not_mem_nil, or_false] at hb
    have tame : ∀ {l : List Byte}, Plain l → b ∈ l → Tame b := fun h hb => ⟨(h b hb).2.1, (h b hb).2.2.2⟩
    have ha := tame type_plain
    have hb' := tame h1
    have hc' := tame h2
    have hd := hc.2 b
    rcases hb with rfl | (((rfl | h | rfl) | rfl | ((rfl | h | rfl) | rfl | ((rfl | h | rfl) | rfl | h))) | rfl)
    all_goals first | decide | exact ha h | exact hb' h | exact hc' h | exact hd h

/-! ### Geometries -/

section
variable {N : List Byte → F64 → Prop} {num : F64 → List Byte}

/-- The text of a coordinate is a number read as the coordinate. -/
abbrev Ok (N : List Byte → F64 → Prop) (num : F64 → List Byte) (x : F64) : Prop := N (num x) x ∧ IsNumber (num x)

theorem posn_text {p : List F64} (h : ∀ x ∈ p, Ok N num x) (hl : p.length ≤ 4) : IsPosn N p (posn num p) := by
  refine ⟨_, bracket_arr _, ?_, ?_⟩
  · intro n hn
    obtain ⟨x, hx, rfl⟩ := List.mem_map.1 hn
    exact (h x hx).2
  · rw [List.take_of_length_le (by simpa using hl)]
    clear hl
    induction p with
    | nil => exact .nil
    | cons x p ih => exact .cons (h x (by simp)).1 (ih fun y hy => h y (by simp [hy]))

theorem posn_fits {p : List F64} (h : ∀ x ∈ p, Ok N num x) : Fits 2 (posn num p) := list_fits fun x hx => num_fits (h x hx).2
theorem series_fits {p : List (List F64)} (h : ∀ q ∈ p, ∀ x ∈ q, Ok N num x) : Fits 3 (series num p) := list_fits fun x hx => posn_fits (h x hx)
theorem nested_fits {p : List (List (List F64))} (h : ∀ r ∈ p, ∀ q ∈ r, ∀ x ∈ q, Ok N num x) : Fits 4 (nested num p) := list_fits fun x hx => series_fits (h x hx)
theorem nested2_fits {p : List (List (List (List F64)))} (h : ∀ s ∈ p, ∀ r ∈ s, ∀ q ∈ r, ∀ x ∈ q, Ok N num x) : Fits 5 (nested2 num p) :=
  list_fits fun x hx => nested_fits (h x hx)

theorem posOk_le {z m : Bool} {p : List F64} (h : posOk z m p) : p.length ≤ 4 := by
  revert h; unfold posOk dims; cases z <;> cases m <;> simp <;> omega

theorem coord_plain : Plain (txt "coordinates") := by decide

theorem put {name : String} {c : List Byte} {n : Nat} (h1 : Plain (txt name)) (hc : Fits (n + 1) c) :
    TypeObj name "coordinates" c (obj name "coordinates" c) ∧ Fits (n + 2) (obj name "coordinates" c) :=
  ⟨obj_type h1 coord_plain (by decide) hc.1, obj_fits h1 coord_plain hc⟩

theorem brackets_fits : Fits 1 (txt "[]") := list_fits (n := 0) (α := Byte) (f := fun _ => []) (l := []) (by simp)

/-- An object with an array, that may be empty. -/
theorem put_list {α : Type} {name : String} {f : α → List Byte} {l : List α} {n : Nat} (h1 : Plain (txt name)) (hc : ∀ a ∈ l, Fits n (f a)) :
    TypeObj name "coordinates" (bracket 0x5B#8 0x5D#8 (l.map f)) (obj name "coordinates" (bracket 0x5B#8 0x5D#8 (l.map f))) ∧
    Fits (if l = [] then 2 else n + 2) (obj name "coordinates" (bracket 0x5B#8 0x5D#8 (l.map f))) := by
  by_cases hl : l = []
  · subst hl
    have h3 : Fits 1 (bracket 0x5B#8 0x5D#8 (([] : List α).map f)) := list_fits (by simp)
    rw [if_pos rfl]
    exact put h1 h3
  · rw [if_neg hl]
    exact put h1 (list_fits hc)

mutual
theorem text_geo : ∀ (v : GV), Wkt.Wf v → Wkt.AllCoords (Ok N num) v → IsGeometry N v (text num v) ∧ Fits (levels v) (text num v)
  | .point z m (some p), hw, hc => by
    rw [Wkt.Wf] at hw; rw [Wkt.AllCoords] at hc
    obtain ⟨h1, h2⟩ := put (name := "Point") (by decide) (posn_fits hc)
    exact ⟨⟨_, h1, posn_text hc (posOk_le hw)⟩, h2⟩
  | .point z m none, _, _ => by
    obtain ⟨h1, h2⟩ := put (name := "Point") (by decide) brackets_fits
    exact ⟨⟨_, h1, bracket_arr []⟩, h2⟩
  | .line z m ps, hw, hc => by
    rw [Wkt.Wf] at hw; rw [Wkt.AllCoords] at hc
    obtain ⟨h1, h2⟩ := put_list (name := "LineString") (by decide) fun p hp => posn_fits (hc p hp)
    refine ⟨⟨_, h1, list_text fun p hp => posn_text (hc p hp) (posOk_le (z := z) (m := m) ?_)⟩, h2⟩
    rcases hw with rfl | hw
    · simp at hp
    · exact hw.2 p hp
  | .poly z m rs, hw, hc => by
    rw [Wkt.Wf] at hw; rw [Wkt.AllCoords] at hc
    obtain ⟨h1, h2⟩ := put_list (name := "Polygon") (by decide) fun r hr => series_fits (hc r hr)
    exact ⟨⟨_, h1, list_text fun r hr => list_text fun p hp => posn_text (hc r hr p hp) (posOk_le ((hw r hr).2.1 p hp))⟩, h2⟩
  | .mpoint z m ps, hw, hc => by
    rw [Wkt.Wf] at hw; rw [Wkt.AllCoords] at hc
    obtain ⟨h1, h2⟩ := put_list (name := "MultiPoint") (by decide) fun p hp => posn_fits (hc p hp)
    exact ⟨⟨_, h1, list_text fun p hp => posn_text (hc p hp) (posOk_le (hw p hp))⟩, h2⟩
  | .mline z m ls, hw, hc => by
    rw [Wkt.Wf] at hw; rw [Wkt.AllCoords] at hc
    obtain ⟨h1, h2⟩ := put_list (name := "MultiLineString") (by decide) fun r hr => series_fits (hc r hr)
    exact ⟨⟨_, h1, list_text fun r hr => list_text fun p hp => posn_text (hc r hr p hp) (posOk_le ((hw r hr).2 p hp))⟩, h2⟩
  | .mpoly z m ps, hw, hc => by
    rw [Wkt.Wf] at hw; rw [Wkt.AllCoords] at hc
    obtain ⟨h1, h2⟩ := put_list (name := "MultiPolygon") (by decide) fun r hr => nested_fits (hc r hr)
    exact ⟨⟨_, h1, list_text fun s hs => list_text fun r hr => list_text fun p hp => posn_text (hc s hs r hr p hp) (posOk_le (((hw s hs).2 r hr).2.1 p hp))⟩, h2⟩
  | .coll gs, hw, hc => by
    rw [Wkt.Wf] at hw; rw [Wkt.AllCoords] at hc
    obtain ⟨h1, h2⟩ := texts_geo gs hw hc
    have h3 := bracket_fits h2
    have hp : Plain (txt "geometries") := by decide
    have hq : Plain (txt "GeometryCollection") := by decide
    exact ⟨⟨_, _, obj_type hq hp (by decide) h3.1, bracket_arr _, h1⟩, obj_fits hq hp h3⟩
theorem texts_geo : ∀ (vs : List GV), Wkt.Wfs vs → Wkt.AllCoordss (Ok N num) vs → AreGeometries N vs (texts num vs) ∧ ∀ t ∈ texts num vs, Fits (levelss vs) t
  | [], _, _ => ⟨by simp [AreGeometries, texts], by simp [texts]⟩
  | v :: vs, hw, hc => by
    rw [Wkt.Wfs] at hw; rw [Wkt.AllCoordss] at hc
    obtain ⟨h1, h2⟩ := text_geo v hw.1 hc.1
    obtain ⟨h3, h4⟩ := texts_geo vs hw.2 hc.2
    refine ⟨⟨_, _, rfl, h1, h3⟩, fun t ht => ?_⟩
    rw [texts] at ht
    rw [levelss]
    rcases List.mem_cons.1 ht with rfl | ht
    · exact h2.up (le_max_left _ _)
    · exact (h4 t ht).up (le_max_right _ _)
end

/-! ### The levels are exact -/

theorem walk_unique : ∀ {vs vs' : List (List Byte)} {j : Option J}, Walk vs j → Walk vs' j → vs = vs'
  | [], [], _, _, _ => rfl
  | [], v :: vs, j, h, h' => by obtain ⟨⟨r, hr⟩, -⟩ := h'; rw [Walk] at h; subst h; exact absurd hr.isSome (by simp)
  | v :: vs, [], j, h, h' => by obtain ⟨⟨r, hr⟩, -⟩ := h; rw [Walk] at h'; subst h'; exact absurd hr.isSome (by simp)
  | v :: vs, v' :: vs', j, ⟨⟨r, hr⟩, h⟩, ⟨⟨r', hr'⟩, h'⟩ => by rw [← hr.raw, ← hr'.raw, walk_unique h h']

theorem jval_here {t : List Byte} (h : JVal t) : Here (peekAny (t ++ [])) t [] := peek_jval h (by intro b t h; cases h)

theorem arr_inv {n : Nat} {vs : List (List Byte)} {t : List Byte} (h : IsArr vs t) (hv : ∀ v ∈ vs, JVal v) (ht : Val Str n t) : ∃ m, n = m + 1 ∧ ∀ v ∈ vs, Val Str m v := by
  have hh : t.head? = some 0x5B#8 := by obtain ⟨l, -, rfl⟩ := h; rfl
  obtain ⟨m, vs', rfl, h1, h2⟩ := val_items ht hh
  have hj := jval_here (arr_jval h hv)
  rw [walk_unique (arr_walk h hv hj) (arr_walk h1 (fun v hv => ⟨m, h2 v hv⟩) hj)]
  exact ⟨m, rfl, h2⟩

theorem mem_unique {ps : List (Option J × Option J)} {ms ms' : List (List Byte × List Byte)} (h : List.Forall₂ IsMem ps ms) (h' : List.Forall₂ IsMem ps ms') : ms = ms' := by
  induction h generalizing ms' with
  | nil => cases h'; rfl
  | cons h1 _ ih =>
    cases h' with
    | cons h1' h2' =>
      obtain ⟨⟨r, -, a1⟩, r', -, a2⟩ := h1
      obtain ⟨⟨s, -, b1⟩, s', -, b2⟩ := h1'
      rw [ih h2']
      congr 1
      exact Prod.ext (a1.raw.symm.trans b1.raw) (a2.raw.symm.trans b2.raw)

theorem obj_inv {n : Nat} {ms : List (List Byte × List Byte)} {t : List Byte} (h : Spec.Geojson.IsObj ms t) (ht : Val Str n t) : ∃ m, n = m + 1 ∧ ∀ x ∈ ms, Val Str m x.2 := by
  have hh : t.head? = some 0x7B#8 := by obtain ⟨-, l, -, rfl⟩ := h; rfl
  obtain ⟨m, ms', rfl, h1, h2⟩ := val_members ht hh
  have hj := jval_here (obj_jval h)
  rw [mem_unique (obj_pairs h hj) (obj_pairs h1 hj)]
  exact ⟨m, rfl, h2⟩

theorem typed_inv {n : Nat} {name field : String} {c t : List Byte} (h : TypeObj name field c t) (ht : Val Str n t) : ∃ m, n = m + 1 ∧ Val Str m c := by
  obtain ⟨ms, ty, h1, -, -, ⟨a, k, b, rfl, -⟩⟩ := h
  obtain ⟨m, rfl, h2⟩ := obj_inv h1 ht
  exact ⟨m, rfl, h2 (k, c) (by simp)⟩

/-- No fewer levels will do. -/
def Least (k : Nat) (t : List Byte) : Prop := ∀ n, Val Str n t → k ≤ n

theorem least_list {α : Type} {k n : Nat} {f : α → List Byte} {l : List α} (hl : l ≠ []) (h : ∀ a ∈ l, Fits n (f a)) (hk : ∀ a ∈ l, Least k (f a)) :
    Least (k + 1) (bracket 0x5B#8 0x5D#8 (l.map f)) := by
  intro i hi
  obtain ⟨m, rfl, h2⟩ := arr_inv (bracket_arr _) (fun v hv => by obtain ⟨a, ha, rfl⟩ := List.mem_map.1 hv; exact ⟨n, (h a ha).1⟩) hi
  obtain ⟨a, ha⟩ := List.exists_mem_of_ne_nil l hl
  have := hk a ha m (h2 _ (List.mem_map.2 ⟨a, ha, rfl⟩))
  omega

theorem posOk_ne {z m : Bool} {p : List F64} (h : posOk z m p) : p ≠ [] := by
  rintro rfl; revert h; unfold posOk dims; cases z <;> cases m <;> simp

theorem least_posn {p : List F64} (hp : p ≠ []) (h : ∀ x ∈ p, Ok N num x) : Least 2 (posn num p) :=
  least_list hp (fun x hx => num_fits (h x hx).2) fun _ _ _ h => val_pos h
theorem least_series {p : List (List F64)} (hp : p ≠ []) (hq : ∀ q ∈ p, q ≠ []) (h : ∀ q ∈ p, ∀ x ∈ q, Ok N num x) : Least 3 (series num p) :=
  least_list hp (fun x hx => posn_fits (h x hx)) fun x hx => least_posn (hq x hx) (h x hx)
theorem least_nested {p : List (List (List F64))} (hp : p ≠ []) (hq : ∀ q ∈ p, q ≠ []) (hr : ∀ q ∈ p, ∀ r ∈ q, r ≠ []) (h : ∀ r ∈ p, ∀ q ∈ r, ∀ x ∈ q, Ok N num x) : Least 4 (nested num p) :=
  least_list hp (fun x hx => series_fits (h x hx)) fun x hx => least_series (hq x hx) (hr x hx) (h x hx)
theorem least_nested2 {p : List (List (List (List F64)))} (hp : p ≠ []) (hq : ∀ q ∈ p, q ≠ []) (hr : ∀ q ∈ p, ∀ r ∈ q, r ≠ []) (hs : ∀ q ∈ p, ∀ r ∈ q, ∀ s ∈ r, s ≠ [])
    (h : ∀ s ∈ p, ∀ r ∈ s, ∀ q ∈ r, ∀ x ∈ q, Ok N num x) : Least 5 (nested2 num p) :=
  least_list hp (fun x hx => nested_fits (h x hx)) fun x hx => least_nested (hq x hx) (hr x hx) (hs x hx) (h x hx)

theorem least_obj {k : Nat} {name field : String} {c t : List Byte} (h : TypeObj name field c t) (hc : Least k c) : Least (k + 1) t := by
  intro n hn
  obtain ⟨m, rfl, h2⟩ := typed_inv h hn
  have := hc m h2
  omega

theorem lineWf_ne {z m : Bool} {l : List (List F64)} (h : Wkt.LineWf z m l) : l ≠ [] ∧ ∀ p ∈ l, p ≠ [] := by
  refine ⟨?_, fun p hp => posOk_ne (h.2 p hp)⟩
  rintro rfl
  have := h.1
  simp at this
theorem ringWf_ne {z m : Bool} {l : List (List F64)} (h : Wkt.RingWf z m l) : l ≠ [] ∧ ∀ p ∈ l, p ≠ [] := by
  refine ⟨?_, fun p hp => posOk_ne (h.2.1 p hp)⟩
  rintro rfl
  have := h.1
  simp at this

theorem least_zero {t : List Byte} : Least 1 t := fun _ h => val_pos h

mutual
theorem text_least : ∀ (v : GV), Wkt.Wf v → Wkt.AllCoords (Ok N num) v → Least (levels v) (text num v)
  | .point z m (some p), hw, hc => by
    rw [Wkt.Wf] at hw; rw [Wkt.AllCoords] at hc
    exact least_obj (put (name := "Point") (by decide) (posn_fits hc)).1 (least_posn (posOk_ne hw) hc)
  | .point z m none, _, _ => least_obj (put (name := "Point") (by decide) brackets_fits).1 least_zero
  | .line z m ps, hw, hc => by
    rw [Wkt.Wf] at hw; rw [Wkt.AllCoords] at hc
    have h := (put_list (name := "LineString") (by decide) fun p hp => posn_fits (hc p hp)).1
    rw [levels]
    split_ifs with he
    · exact least_obj h least_zero
    · have := lineWf_ne (hw.resolve_left he)
      exact least_obj h (least_series he this.2 hc)
  | .poly z m rs, hw, hc => by
    rw [Wkt.Wf] at hw; rw [Wkt.AllCoords] at hc
    have h := (put_list (name := "Polygon") (by decide) fun p hp => series_fits (hc p hp)).1
    rw [levels]
    split_ifs with he
    · exact least_obj h least_zero
    · exact least_obj h (least_nested he (fun r hr => (ringWf_ne (hw r hr)).1) (fun r hr => (ringWf_ne (hw r hr)).2) hc)
  | .mpoint z m ps, hw, hc => by
    rw [Wkt.Wf] at hw; rw [Wkt.AllCoords] at hc
    have h := (put_list (name := "MultiPoint") (by decide) fun p hp => posn_fits (hc p hp)).1
    rw [levels]
    split_ifs with he
    · exact least_obj h least_zero
    · exact least_obj h (least_series he (fun p hp => posOk_ne (hw p hp)) hc)
  | .mline z m ls, hw, hc => by
    rw [Wkt.Wf] at hw; rw [Wkt.AllCoords] at hc
    have h := (put_list (name := "MultiLineString") (by decide) fun p hp => series_fits (hc p hp)).1
    rw [levels]
    split_ifs with he
    · exact least_obj h least_zero
    · exact least_obj h (least_nested he (fun r hr => (lineWf_ne (hw r hr)).1) (fun r hr => (lineWf_ne (hw r hr)).2) hc)
  | .mpoly z m ps, hw, hc => by
    rw [Wkt.Wf] at hw; rw [Wkt.AllCoords] at hc
    have h := (put_list (name := "MultiPolygon") (by decide) fun p hp => nested_fits (hc p hp)).1
    rw [levels]
    split_ifs with he
    · exact least_obj h least_zero
    · exact least_obj h (least_nested2 he (fun r hr => (hw r hr).1) (fun r hr s hs => (ringWf_ne ((hw r hr).2 s hs)).1) (fun r hr s hs => (ringWf_ne ((hw r hr).2 s hs)).2) hc)
  | .coll gs, hw, hc => by
    rw [Wkt.Wf] at hw; rw [Wkt.AllCoords] at hc
    obtain ⟨h1, h2⟩ := texts_geo gs hw hc
    have hp : Plain (txt "geometries") := by decide
    have hq : Plain (txt "GeometryCollection") := by decide
    refine least_obj (obj_type hq hp (by decide) (bracket_fits h2).1) ?_
    intro n hn
    obtain ⟨m, rfl, h3⟩ := arr_inv (bracket_arr _) (fun v hv => ⟨_, (h2 v hv).1⟩) hn
    have := texts_least gs hw hc m h3
    omega
theorem texts_least : ∀ (vs : List GV), Wkt.Wfs vs → Wkt.AllCoordss (Ok N num) vs → ∀ n, (∀ t ∈ texts num vs, Val Str n t) → levelss vs ≤ n
  | [], _, _, n, _ => by rw [levelss]; omega
  | v :: vs, hw, hc, n, h => by
    rw [Wkt.Wfs] at hw; rw [Wkt.AllCoordss] at hc
    rw [texts] at h
    have h1 := text_least v hw.1 hc.1 n (h _ (by simp))
    have h2 := texts_least vs hw.2 hc.2 n fun t ht => h t (by simp [ht])
    rw [levelss]
    exact max_le h1 h2
end

/-! ### M without Z -/

mutual
theorem zForM_text : ∀ v : GV, text num (zForM v) = text num v
  | .point _ _ (some _) | .point _ _ none | .line _ _ _ | .poly _ _ _ | .mpoint _ _ _ | .mline _ _ _ | .mpoly _ _ _ => by rw [zForM, text, text]
  | .coll gs => by rw [zForM, text, text, zForMs_text gs]
theorem zForMs_text : ∀ vs : List GV, texts num (zForMs vs) = texts num vs
  | [] => by rw [zForMs]
  | v :: vs => by rw [zForMs, texts, texts, zForM_text v, zForMs_text vs]
end

theorem zm_dims (z m : Bool) : dims (z || m) (z && m) = dims z m := by cases z <;> cases m <;> rfl
theorem zm_pos {z m : Bool} {p : List F64} : posOk (z || m) (z && m) p ↔ posOk z m p := by unfold posOk; rw [zm_dims]
theorem zm_line {z m : Bool} {p : List (List F64)} : Wkt.LineWf (z || m) (z && m) p ↔ Wkt.LineWf z m p := by unfold Wkt.LineWf; simp only [zm_pos]
theorem zm_ring {z m : Bool} {p : List (List F64)} : Wkt.RingWf (z || m) (z && m) p ↔ Wkt.RingWf z m p := by unfold Wkt.RingWf; simp only [zm_pos]

mutual
theorem zForM_wf : ∀ v : GV, Wkt.Wf (zForM v) ↔ Wkt.Wf v
  | .point _ _ (some _) => by simp only [zForM, Wkt.Wf, zm_pos]
  | .point _ _ none => by simp only [zForM, Wkt.Wf]
  | .line _ _ _ => by simp only [zForM, Wkt.Wf, zm_line]
  | .poly _ _ _ => by simp only [zForM, Wkt.Wf, zm_ring]
  | .mpoint _ _ _ => by simp only [zForM, Wkt.Wf, zm_pos]
  | .mline _ _ _ => by simp only [zForM, Wkt.Wf, zm_line]
  | .mpoly _ _ _ => by simp only [zForM, Wkt.Wf, zm_ring]
  | .coll gs => by simp only [zForM, Wkt.Wf, zForMs_wf gs]
theorem zForMs_wf : ∀ vs : List GV, Wkt.Wfs (zForMs vs) ↔ Wkt.Wfs vs
  | [] => by rw [zForMs]
  | v :: vs => by simp only [zForMs, Wkt.Wfs, zForM_wf v, zForMs_wf vs]
end

mutual
theorem zForM_coords {Q : F64 → Prop} : ∀ v : GV, Wkt.AllCoords Q (zForM v) ↔ Wkt.AllCoords Q v
  | .point _ _ (some _) | .point _ _ none | .line _ _ _ | .poly _ _ _ | .mpoint _ _ _ | .mline _ _ _ | .mpoly _ _ _ => by simp only [zForM, Wkt.AllCoords]
  | .coll gs => by simp only [zForM, Wkt.AllCoords, zForMs_coords gs]
theorem zForMs_coords {Q : F64 → Prop} : ∀ vs : List GV, Wkt.AllCoordss Q (zForMs vs) ↔ Wkt.AllCoordss Q vs
  | [] => by rw [zForMs]
  | v :: vs => by simp only [zForMs, Wkt.AllCoordss, zForM_coords v, zForMs_coords vs]
end

mutual
theorem zForM_first : ∀ v : GV, ZFirst (zForM v)
  | .point _ _ none => by simp only [zForM, ZFirst]
  | .point z m (some _) | .line z m _ | .poly z m _ | .mpoint z m _ | .mline z m _ | .mpoly z m _ => by cases z <;> cases m <;> simp [zForM, ZFirst]
  | .coll gs => by rw [zForM, ZFirst]; exact zForMs_first gs
theorem zForMs_first : ∀ vs : List GV, ZFirsts (zForMs vs)
  | [] => by rw [zForMs, ZFirsts]; trivial
  | v :: vs => by rw [zForMs, ZFirsts]; exact ⟨zForM_first v, zForMs_first vs⟩
end

mutual
theorem zForM_levels : ∀ v : GV, levels (zForM v) = levels v
  | .point _ _ (some _) | .point _ _ none | .line _ _ _ | .poly _ _ _ | .mpoint _ _ _ | .mline _ _ _ | .mpoly _ _ _ => by rw [zForM, levels, levels]
  | .coll gs => by rw [zForM, levels, levels, zForMs_levels gs]
theorem zForMs_levels : ∀ vs : List GV, levelss (zForMs vs) = levelss vs
  | [] => by rw [zForMs]
  | v :: vs => by rw [zForMs, levelss, levelss, zForM_levels v, zForMs_levels vs]
end

/-- A text without white space around it. -/
theorem text_ends (v : GV) : ∃ l, text num v = 0x7B#8 :: (l ++ [0x7D#8]) := by
  have : ∃ a b c, text num v = obj a b c := by
    cases v with
    | point z m p => cases p <;> exact ⟨_, _, _, by rw [text]⟩
    | _ => exact ⟨_, _, _, by rw [text]⟩
  obtain ⟨a, b, c, e⟩ := this
  exact ⟨_, e.trans (obj_eq a b c)⟩

end
end Tg.Gp
