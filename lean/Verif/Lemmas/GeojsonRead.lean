import Verif.Lemmas.GeojsonNav
import Verif.Lemmas.JsonNul
import Verif.Lemmas.WktWhole
/-! What the GeoJSON parser makes of the objects that are GeoJSON. -/
set_option linter.unusedSectionVars false
namespace Tg.Gp
open Json
open Wp (P Base checkBase dimFlags polyOf showBytes Safe bind_ok safe_ok safe_err)
open Spec.Json (Ws Val Elems Mems Chr Chrs Str Utf8 HexDigit IsNumber)
open Spec.Geojson (Items IsArr Pairs Spells Named Member TypeObj others extraText IsPosn IsSeries IsRings IsPolys IsList)
open Spec (view views posOk dims eachAfter join bracket)
open Spec.Wkt (LineWf RingWf Wf Wfs)

/-! ### Members -/

theorem named_unique {k : List Byte} {s s' : String} (h : Named k s) (h' : Named k s') : txt s = txt s' := by
  obtain ⟨cs, rfl, h⟩ := h
  obtain ⟨cs', e, h'⟩ := h'
  have e : cs = cs' := by simpa using e
  subst e
  rw [← spells_unescape h, spells_unescape h']

/-- `addPair` for all. -/
def addAll (e : List Byte) : List (List Byte × List Byte) → List Byte
  | [] => e
  | m :: ms => addAll (e ++ ((if e.length = 0 then 0x7B#8 else 0x2C#8) :: (m.1 ++ 0x3A#8 :: m.2))) ms

theorem addAll_append (ms ms' : List (List Byte × List Byte)) : ∀ e, addAll e (ms ++ ms') = addAll (addAll e ms) ms' := by
  induction ms with
  | nil => intro e; rfl
  | cons m ms ih => intro e; exact ih _

theorem addAll_more {e : List Byte} (h : e ≠ []) (ms : List (List Byte × List Byte)) : addAll e ms = e ++ eachAfter 0x2C#8 (ms.map fun m => m.1 ++ 0x3A#8 :: m.2) := by
  induction ms generalizing e with
  | nil => simp [addAll, eachAfter]
  | cons m ms ih =>
    have : e.length ≠ 0 := by simpa using h
    rw [addAll, if_neg this, ih (by simp), List.map_cons, eachAfter]; simp

theorem addAll_text (ms : List (List Byte × List Byte)) (h : ∀ m ∈ ms, NoNul m.1 ∧ NoNul m.2) :
    (if (addAll [] ms).length > 0 then some ((addAll [] ms ++ [0x7D#8]).takeWhile (· != 0#8)) else none) = extraText ms := by
  cases ms with
  | nil => simp [addAll, extraText]
  | cons m ms =>
    have e : addAll [] (m :: ms) = 0x7B#8 :: join 0x2C#8 ((m :: ms).map fun m => m.1 ++ 0x3A#8 :: m.2) := by
      rw [addAll, addAll_more (by simp)]
      simp [join]
    rw [e, if_pos (by simp), extraText, if_neg (by simp)]
    congr 1
    rw [List.cons_append]
    have key : ∀ l : List Byte, NoNul l → l.takeWhile (· != 0#8) = l := by
      intro l
      induction l with
      | nil => intro _; rfl
      | cons b l ih =>
        intro h
        have : (b != 0#8) = true := by simpa using h b (by simp)
        rw [List.takeWhile_cons, this, if_pos rfl, ih fun x hx => h x (by simp [hx])]
    have hea : ∀ l : List (List Byte × List Byte), (∀ m ∈ l, NoNul m.1 ∧ NoNul m.2) → NoNul (eachAfter 0x2C#8 (l.map fun m => m.1 ++ 0x3A#8 :: m.2)) := by
      intro l
      induction l with
      | nil => intro _; exact .nil
      | cons m l ih =>
        intro h
        rw [List.map_cons, eachAfter]
        exact .cons (by decide) ((((h m (by simp)).1).app (.cons (by decide) (h m (by simp)).2)).app (ih fun x hx => h x (by simp [hx])))
    rw [bracket]
    apply key
    rw [List.map_cons, join]
    exact .cons (by decide) ((((((h m (by simp)).1).app (.cons (by decide) (h m (by simp)).2)).app (hea ms fun x hx => h x (by simp [hx])))).app (.cons (by decide) .nil))

theorem others_nil (names : List String) : others names [] = [] := rfl
theorem others_append (names : List String) (a b : List (List Byte × List Byte)) : others names (a ++ b) = others names a ++ others names b := by
  unfold others; rw [List.filter_append]
theorem others_named {names : List String} {m : List Byte × List Byte} {s : String} (hs : s ∈ names) (h : Named m.1 s) (ms : List (List Byte × List Byte)) :
    others names (m :: ms) = others names ms := by
  unfold others
  rw [List.filter_cons_of_neg]
  simp only [decide_eq_true_eq]
  exact fun hn => hn s hs h
theorem others_else {names : List String} {m : List Byte × List Byte} (h : ∀ s ∈ names, ¬ Named m.1 s) (ms : List (List Byte × List Byte)) :
    others names (m :: ms) = m :: others names ms := by
  unfold others
  rw [List.filter_cons_of_pos]
  simpa using h
theorem others_mem {names : List String} {m : List Byte × List Byte} {ms : List (List Byte × List Byte)} (h : m ∈ others names ms) : m ∈ ms := (List.mem_filter.1 h).1

theorem takeLoop_append (target : String) (ps qs : List (Option J × Option J)) : ∀ a, takeLoop target a (ps ++ qs) = (takeLoop target a ps).bind fun a => takeLoop target a qs := by
  induction ps with
  | nil => intro a; rfl
  | cons p ps ih =>
    intro a
    obtain ⟨k, v⟩ := p
    rw [List.cons_append, takeLoop, takeLoop]
    cases takeMember target a k v with
    | ub => rfl
    | err e => rfl
    | ok a' => exact ih a'

/-- The names that are looked for are ASCII. -/
def Ascii (s : String) : Prop := ∀ b ∈ txt s, b.toNat < 0x80

theorem ascii_type : Ascii "type" := by unfold Ascii; decide
theorem ascii_coordinates : Ascii "coordinates" := by unfold Ascii; decide
theorem ascii_geometries : Ascii "geometries" := by unfold Ascii; decide
theorem ascii_geometry : Ascii "geometry" := by unfold Ascii; decide
theorem ascii_features : Ascii "features" := by unfold Ascii; decide
theorem ascii_properties : Ascii "properties" := by unfold Ascii; decide
theorem ascii_id : Ascii "id" := by unfold Ascii; decide

theorem mem_strEq {p : Option J × Option J} {m : List Byte × List Byte} (h : IsMem p m) (hs : Str m.1) {s : String} (ha : Ascii s) : strEq p.1 (txt s) = true ↔ Named m.1 s := by
  obtain ⟨⟨r, h1, -⟩, -⟩ := h
  exact strEq_named hs ha h1

theorem mem_strEq_not {p : Option J × Option J} {m : List Byte × List Byte} (h : IsMem p m) (hs : Str m.1) {s : String} (ha : Ascii s) (hn : ¬ Named m.1 s) : strEq p.1 (txt s) = false := by
  rw [← Bool.not_eq_true]; exact fun h' => hn ((mem_strEq h hs ha).1 h')

theorem mem_add {p : Option J × Option J} {m : List Byte × List Byte} (h : IsMem p m) (e : List Byte) :
    addPair e p.1 p.2 = e ++ ((if e.length = 0 then 0x7B#8 else 0x2C#8) :: (m.1 ++ 0x3A#8 :: m.2)) := by
  obtain ⟨⟨r, -, h1⟩, r', -, h2⟩ := h
  rw [addPair, h1.raw, h2.raw]

/-- Members without the target, of an object that is not a Feature. -/
theorem take_others {target : String} (hg : target ≠ "geometry") (ha : Ascii target) {ps : List (Option J × Option J)} {ms : List (List Byte × List Byte)}
    (h : List.Forall₂ IsMem ps ms) (hs : ∀ m ∈ ms, Str m.1) (hn : ∀ m ∈ ms, ¬ Named m.1 target) :
    ∀ a, takeLoop target a ps = .ok { a with extra := addAll a.extra (others ["type", target] ms) } := by
  induction h with
  | nil => intro a; rfl
  | @cons p m ps ms hp _ ih =>
    intro a
    obtain ⟨k, v⟩ := p
    have ih := ih (fun m hm => hs m (by simp [hm])) (fun m hm => hn m (by simp [hm]))
    have hm := hs m (by simp)
    rw [takeLoop, takeMember]
    by_cases ht : Named m.1 "type"
    · rw [if_pos ((mem_strEq hp hm ascii_type).2 ht), others_named (s := "type") (by simp) ht]
      exact ih a
    · have h1 := mem_strEq_not hp hm ascii_type ht
      have h2 := mem_strEq_not hp hm ha (hn m (by simp))
      dsimp only at h1 h2
      rw [h1, h2, if_neg (by simp), if_neg (by simp), if_neg hg, others_else (by simpa using ⟨ht, hn m (by simp)⟩), addAll, ← mem_add hp]
      exact ih _

theorem forall₂_split {α β : Type} {R : α → β → Prop} : ∀ {a b : List β} {l : List α}, List.Forall₂ R l (a ++ b) → ∃ x y, List.Forall₂ R x a ∧ List.Forall₂ R y b ∧ l = x ++ y
  | [], _, l, h => ⟨[], l, .nil, h, rfl⟩
  | c :: a, b, l, h => by
    cases h with
    | cons h1 h2 =>
      obtain ⟨x, y, hx, hy, rfl⟩ := forall₂_split h2
      exact ⟨_ :: x, y, .cons h1 hx, hy, rfl⟩

/-- `take_basic_geojson` of an object that is not a Feature. -/
theorem takeBasic_obj {target : String} (hg : target ≠ "geometry") (ha : Ascii target) (htt : txt target ≠ txt "type")
    {ms : List (List Byte × List Byte)} {t c : List Byte} {vs : List (List Byte)} (ho : Spec.Geojson.IsObj ms t) (hm : Member ms target c) (hc : IsArr vs c)
    {j : Option J} {r : List Byte} (hj : Here j t r) :
    ∃ T r', takeBasic j target = .ok ⟨T, { isEmpty := (first T).isNone }, extraText (others ["type", target] ms)⟩ ∧ Here T c r' := by
  have hp := obj_pairs ho hj
  obtain ⟨A, k, B, rfl, hk, hn⟩ := hm
  obtain ⟨pa, pb, hpa, hpb, hpe⟩ := forall₂_split hp
  cases hpb with
  | @cons p _ pb _ hpk hpb =>
  obtain ⟨k', v'⟩ := p
  have hst : Str k := (ho.1 (k, c) (by simp)).1
  have hnt : ¬ Named k "type" := fun h => htt (named_unique hk h)
  obtain ⟨⟨r1, e1, h1⟩, r2, e2, h2⟩ := id hpk
  dsimp only at e1 e2 h1 h2
  refine ⟨ensure v', r2, ?_, h2.ensure⟩
  have e : takeLoop target {} (pairs j) =
      .ok { target := ensure v', extra := addAll [] (others ["type", target] (A ++ (k, c) :: B)) } := by
    rw [hpe, takeLoop_append, take_others hg ha hpa (fun m hm => (ho.1 m (by simp [hm])).1) (fun m hm => hn m (by simp [hm]))]
    simp only [P.bind]
    rw [takeLoop, takeMember]
    have h3 := mem_strEq_not hpk hst ascii_type hnt
    have h4 := (mem_strEq hpk hst ha).2 hk
    dsimp only at h3 h4
    rw [h3, h4, if_neg (by simp), if_pos rfl]
    simp only [P.bind]
    rw [take_others hg ha hpb (fun m hm => (ho.1 m (by simp [hm])).1) (fun m hm => hn m (by simp [hm])), others_append, others_named (s := target) (by simp) hk, addAll_append]
  rw [takeBasic, e]
  simp only [P.bind]
  have h5 : (ensure v').isNone = false := by
    have := h2.ensure.isSome
    cases hh : ensure v' <;> simp_all
  rw [h5, if_neg (by simp), if_neg hg, if_neg (by rw [arr_head hc h2.ensure]; simp), ← addAll_text]
  intro m hm
  obtain ⟨h6, n, h7⟩ := ho.1 m (others_mem hm)
  exact ⟨str_noNul h6, val_noNul_of (fun _ h => str_noNul h) h7⟩

/-! ### Finishing -/

theorem orFlags_none (f : Flags) : orFlags f {} = f := by cases f; simp [orFlags]

theorem addFlags_none (g : Geom) : addFlags g {} = g := by cases g <;> simp [addFlags, orFlags_none]

theorem xjson_eq (g : Geom) : Spec.Geojson.extraOf g = xjsonOf g := by cases g <;> rfl

/-- What `finish` leaves alone. -/
theorem finish_ok {fl : Flags} {x : Option (List Byte)} {g : Geom} (hb : x.isSome → Boxed g) (hx : xjsonOf g = none) :
    ∃ g', finish fl x g = .ok g' ∧ view g' = view (addFlags g fl) ∧ xjsonOf g' = x ∧ g'.flags = (addFlags g fl).flags ∧ (Boxed g → Boxed g') ∧
      ∀ f h gs c, g = .coll f h gs c none → g' = .coll (orFlags f fl) h gs c x := by
  unfold finish setX
  cases x with
  | none =>
    refine ⟨_, rfl, rfl, by rw [xjson_addFlags, hx], rfl, boxed_addFlags.2, ?_⟩
    rintro f h gs c rfl; rfl
  | some x =>
    have := hb rfl
    cases g <;> simp only [Boxed] at this <;> refine ⟨_, rfl, ?_, rfl, rfl, fun _ => trivial, ?_⟩ <;>
      first
        | (intro f h gs c e; cases e; done)
        | (intro f h gs c e; cases e; rfl)
        | rfl

/-! ### Numbers and positions -/

variable {sd : List Byte → F64 × Nat}

/-- A number that is read as `x`. -/
def Num (sd : List Byte → F64 × Nat) (t : List Byte) (x : F64) : Prop := IsNumber t ∧ parseDouble sd t = x

theorem number_type {t r : List Byte} (h : IsNumber t) {j : Option J} (hj : Here j t r) : jtype j = .number := by
  obtain ⟨b, u, rfl, hb⟩ := number_head h
  rw [jtype, hj.head rfl]
  have hne : ∀ c ∈ ([0x22#8, 0x5B#8, 0x66#8, 0x74#8, 0x7B#8] : List Byte), (b == c) = false := by
    intro c hc
    rw [beq_eq_false_iff_ne]
    rintro rfl
    have := number_toks h b (by simp)
    simp only [List.mem_cons, List.not_mem_nil, or_false] at hc
    rcases hc with rfl | rfl | rfl | rfl | rfl <;> exact absurd this (by decide)
  have hb' : (b == 0x2D#8 || (0x30#8 ≤ b && b ≤ 0x39#8)) = true := by
    rcases hb with rfl | ⟨h1, h2⟩
    · decide
    · simp [BitVec.le_def, h1, h2]
  rw [hne 0x22#8 (by simp), hb']
  rfl

theorem here_some {j : Option J} {v r : List Byte} (h : Here j v r) : ∃ i, j = some i ∧ i.raw ≠ [] := by
  obtain ⟨i, rfl, h1, -, h2⟩ := h
  exact ⟨i, rfl, by rw [h1]; simp [h2]⟩

theorem numLoop_walk (msg : String) : ∀ (ts : List (List Byte)) (j : Option J) (f : Nat) (ps : List F64), Walk ts j → (∀ t ∈ ts, IsNumber t) → size j < f → ps.length ≤ 4 →
    numLoop sd msg f j ps = .ok (ps ++ (ts.take (4 - ps.length)).map (parseDouble sd))
  | [], j, f, ps, hw, hn, hf, hp => by
    rw [Walk] at hw
    subst hw
    obtain ⟨f, rfl⟩ : ∃ f', f = f' + 1 := ⟨f - 1, by omega⟩
    simp [numLoop]
  | t :: ts, j, f, ps, hw, hn, hf, hp => by
    obtain ⟨⟨r, hh⟩, hw⟩ := hw
    obtain ⟨i, rfl, hne⟩ := here_some hh
    obtain ⟨f, rfl⟩ : ∃ f', f = f' + 1 := ⟨f - 1, by omega⟩
    have hsz := size_next hne
    rw [numLoop, if_neg (by rw [number_type (hn t (by simp)) hh]; simp)]
    by_cases h4 : ps.length < 4
    · rw [if_pos h4, numLoop_walk msg ts _ f _ hw (fun u hu => hn u (by simp [hu])) (by omega) (by simp; omega)]
      have : 4 - ps.length = (4 - (ps ++ [jdouble sd (some i)]).length) + 1 := by simp; omega
      rw [this, List.take_succ_cons, List.map_cons, jdouble, hh.raw]
      simp
    · rw [if_neg h4, numLoop_walk msg ts _ f _ hw (fun u hu => hn u (by simp [hu])) (by omega) hp]
      have : 4 - ps.length = 0 := by omega
      simp [this]

theorem posn_jval {p : List F64} {t : List Byte} (h : IsPosn (Num sd) p t) : JVal t := by
  obtain ⟨ts, h1, h2, -⟩ := h
  exact arr_jval h1 fun v hv => ⟨1, .num _ _ (h2 v hv)⟩

theorem forall₂_jval {α : Type} {I : α → List Byte → Prop} (hI : ∀ a t, I a t → JVal t) {l : List α} {ts : List (List Byte)} (h : List.Forall₂ I l ts) : ∀ t ∈ ts, JVal t := by
  induction h with
  | nil => simp
  | cons h _ ih =>
    intro t ht
    rcases List.mem_cons.1 ht with rfl | ht
    · exact hI _ _ h
    · exact ih t ht

theorem list_jval {α : Type} {I : α → List Byte → Prop} (hI : ∀ a t, I a t → JVal t) {l : List α} {t : List Byte} (h : IsList I l t) : JVal t := by
  obtain ⟨ts, h1, h2⟩ := h
  exact arr_jval h1 (forall₂_jval hI h2)

theorem series_jval {p : List (List F64)} {t : List Byte} (h : IsSeries (Num sd) p t) : JVal t := list_jval (fun _ _ => posn_jval) h
theorem rings_jval {p : List (List (List F64))} {t : List Byte} (h : IsRings (Num sd) p t) : JVal t := list_jval (fun _ _ => series_jval) h

theorem num_posn {p : List F64} {ts : List (List Byte)} (h : List.Forall₂ (Num sd) ts p) : ts.map (parseDouble sd) = p := by
  induction h with
  | nil => rfl
  | cons h _ ih => rw [List.map_cons, h.2, ih]

/-- The numbers of a position. -/
theorem posn_read (msg : String) {p : List F64} {t r : List Byte} (h : IsPosn (Num sd) p t) {j : Option J} (hj : Here j t r) (f : Nat) (hf : size j < f) :
    numLoop sd msg f (first j) [] = .ok p := by
  obtain ⟨ts, h1, h2, h3⟩ := h
  have hw := arr_walk h1 (fun v hv => ⟨1, .num _ _ (h2 v hv)⟩) hj
  have := size_first j
  rw [numLoop_walk msg ts _ f [] hw h2 (by omega) (by simp)]
  simp [num_posn h3]

theorem posn_type {p : List F64} {t r : List Byte} (h : IsPosn (Num sd) p t) {j : Option J} (hj : Here j t r) : jtype j = .array := by
  obtain ⟨ts, h1, -⟩ := h
  exact arr_head h1 hj

/-- How many numbers there are after some positions. -/
def dimsAfter {α : Type} (dims D : Nat) (l : List α) : Nat := if l = [] then dims else D

theorem posnLoop_walk (depth D : Nat) (hD : 2 ≤ D) : ∀ (ps : List (List F64)) (ts : List (List Byte)) (j : Option J) (f dims : Nat), Walk ts j → List.Forall₂ (IsPosn (Num sd)) ps ts →
    (∀ p ∈ ps, p.length = D) → size j < f → (dims = 0 ∨ dims = D) → posnLoop sd depth f dims j = .ok (dimsAfter dims D ps, ps)
  | [], ts, j, f, dims, hw, hI, hp, hf, hd => by
    cases hI
    rw [Walk] at hw
    subst hw
    obtain ⟨f, rfl⟩ : ∃ f', f = f' + 1 := ⟨f - 1, by omega⟩
    rfl
  | p :: ps, ts, j, f, dims, hw, hI', hp, hf, hd => by
    obtain ⟨t, ts, rfl, ht, hts⟩ : ∃ t ts', ts = t :: ts' ∧ IsPosn (Num sd) p t ∧ List.Forall₂ (IsPosn (Num sd)) ps ts' := by
      cases hI' with
      | cons h1 h2 => exact ⟨_, _, rfl, h1, h2⟩
    obtain ⟨⟨r, hh⟩, hw⟩ := hw
    obtain ⟨i, rfl, hne⟩ := here_some hh
    obtain ⟨f, rfl⟩ : ∃ f', f = f' + 1 := ⟨f - 1, by omega⟩
    have hsz := size_next hne
    have hpl := hp p (by simp)
    rw [posnLoop, if_neg (by rw [posn_type ht hh]; simp), posn_read _ ht hh _ (by omega)]
    simp only [P.bind]
    have hd' : (if dims = 0 then p.length else dims) = D := by split_ifs <;> omega
    rw [hd', if_neg (by omega), if_neg (by omega), posnLoop_walk depth D hD ps ts _ f D hw hts (fun q hq => hp q (by simp [hq])) (by omega) (.inr rfl)]
    simp only [dimsAfter]
    split_ifs <;> simp_all

theorem posns_read {base : Base} (depth : Nat) {D : Nat} (hD : 2 ≤ D) {ps : List (List F64)} {t r : List Byte} (h : IsSeries (Num sd) ps t) (hp : ∀ p ∈ ps, p.length = D)
    (hc : checkBase base (ps.map ptOf) = none) {dims : Nat} (hd : dims = 0 ∨ dims = D) {j : Option J} (hj : Here j t r) :
    parsePosns sd base depth dims j = .ok (dimsAfter dims D ps, ps) := by
  obtain ⟨ts, h1, h2⟩ := h
  have hw := arr_walk h1 (forall₂_jval (fun _ _ => posn_jval) h2) hj
  have := size_first j
  rw [parsePosns, posnLoop_walk depth D hD ps ts _ _ dims hw h2 hp (by omega) hd]
  simp only [P.bind]
  rw [hc]

theorem arrLoop_walk {α : Type} (msg : String) {inner : Nat → Option J → P (Nat × α)} {I : α → List Byte → Prop} {D : Nat} (Q : α → Prop)
    (hI : ∀ a t j r dims, I a t → Q a → (dims = 0 ∨ dims = D) → Here j t r → jtype j = .array ∧ inner dims j = .ok (D, a)) :
    ∀ (as : List α) (ts : List (List Byte)) (j : Option J) (f dims : Nat), Walk ts j → List.Forall₂ I as ts → (∀ a ∈ as, Q a) → size j < f → (dims = 0 ∨ dims = D) →
    arrLoop msg inner f dims j = .ok (dimsAfter dims D as, as)
  | [], ts, j, f, dims, hw, hI, hp, hf, hd => by
    cases hI
    rw [Walk] at hw
    subst hw
    obtain ⟨f, rfl⟩ : ∃ f', f = f' + 1 := ⟨f - 1, by omega⟩
    rfl
  | a :: as, ts, j, f, dims, hw, hI', hp, hf, hd => by
    obtain ⟨t, ts, rfl, ht, hts⟩ : ∃ t ts', ts = t :: ts' ∧ I a t ∧ List.Forall₂ I as ts' := by
      cases hI' with
      | cons h1 h2 => exact ⟨_, _, rfl, h1, h2⟩
    obtain ⟨⟨r, hh⟩, hw⟩ := hw
    obtain ⟨i, rfl, hne⟩ := here_some hh
    obtain ⟨f, rfl⟩ : ∃ f', f = f' + 1 := ⟨f - 1, by omega⟩
    have hsz := size_next hne
    obtain ⟨h1, h2⟩ := hI a t _ r dims ht (hp a (by simp)) hd hh
    rw [arrLoop, if_neg (by rw [h1]; simp), h2]
    simp only [P.bind]
    rw [arrLoop_walk msg Q hI as ts _ f D hw hts (fun q hq => hp q (by simp [hq])) (by omega) (.inr rfl)]
    simp only [dimsAfter]
    split_ifs <;> simp_all

theorem line_ne {z m : Bool} {ps : List (List F64)} (h : LineWf z m ps) : ps ≠ [] := by rintro rfl; have := h.1; simp at this
theorem ring_ne {z m : Bool} {ps : List (List F64)} (h : RingWf z m ps) : ps ≠ [] := by rintro rfl; have := h.1; simp at this

theorem list_type {α : Type} {I : α → List Byte → Prop} {l : List α} {t r : List Byte} (h : IsList I l t) {j : Option J} (hj : Here j t r) : jtype j = .array := by
  obtain ⟨ts, h1, -⟩ := h
  exact arr_head h1 hj

/-- Several lines. -/
theorem lines_read (msg : String) (depth : Nat) {z m : Bool} {ls : List (List (List F64))} {t r : List Byte} (h : IsRings (Num sd) ls t) (hl : ∀ l ∈ ls, LineWf z m l)
    {dims : Nat} (hd : dims = 0 ∨ dims = Spec.dims z m) {j : Option J} (hj : Here j t r) (f : Nat) (hf : size j < f) :
    arrLoop msg (parsePosns sd .line depth) f dims (first j) = .ok (dimsAfter dims (Spec.dims z m) ls, ls) := by
  obtain ⟨ts, h1, h2⟩ := h
  have hw := arr_walk h1 (forall₂_jval (fun _ _ => series_jval) h2) hj
  have := size_first j
  refine arrLoop_walk msg (LineWf z m) ?_ ls ts _ f dims hw h2 hl (by omega) hd
  intro a t j r dims ha hq hd hj
  refine ⟨list_type ha hj, ?_⟩
  rw [posns_read depth (Wp.dims_bounds z m).1 ha (fun p hp => hq.2 p hp) (Wp.wf_checkLine hq) hd hj, dimsAfter, if_neg (line_ne hq)]

/-- The rings of a polygon. -/
theorem rings_read (depth : Nat) {z m : Bool} {ls : List (List (List F64))} {t r : List Byte} (h : IsRings (Num sd) ls t) (hl : ∀ l ∈ ls, RingWf z m l) (h0 : ls ≠ [])
    {dims : Nat} (hd : dims = 0 ∨ dims = Spec.dims z m) {j : Option J} (hj : Here j t r) :
    parseRings sd depth dims j = .ok (Spec.dims z m, ls) := by
  obtain ⟨ts, h1, h2⟩ := h
  have hw := arr_walk h1 (forall₂_jval (fun _ _ => series_jval) h2) hj
  have := size_first j
  rw [parseRings, arrLoop_walk _ (I := IsSeries (Num sd)) (D := Spec.dims z m) (RingWf z m) ?_ ls ts _ _ dims hw h2 hl (by omega) hd]
  · simp only [P.bind]
    rw [if_neg h0, dimsAfter, if_neg h0]
  intro a t j r dims ha hq hd hj
  refine ⟨list_type ha hj, ?_⟩
  rw [posns_read depth (Wp.dims_bounds z m).1 ha (fun p hp => hq.2.1 p hp) (Wp.wf_checkRing hq) hd hj, dimsAfter, if_neg (ring_ne hq)]

/-- Several polygons. -/
theorem polys_read (msg : String) (depth : Nat) {z m : Bool} {ps : List (List (List (List F64)))} {t r : List Byte} (h : IsPolys (Num sd) ps t)
    (hl : ∀ rs ∈ ps, rs ≠ [] ∧ ∀ l ∈ rs, RingWf z m l) {dims : Nat} (hd : dims = 0 ∨ dims = Spec.dims z m) {j : Option J} (hj : Here j t r) (f : Nat) (hf : size j < f) :
    arrLoop msg (parseRings sd depth) f dims (first j) = .ok (dimsAfter dims (Spec.dims z m) ps, ps) := by
  obtain ⟨ts, h1, h2⟩ := h
  have hw := arr_walk h1 (forall₂_jval (fun _ _ => rings_jval) h2) hj
  have := size_first j
  refine arrLoop_walk msg (fun rs => rs ≠ [] ∧ ∀ l ∈ rs, RingWf z m l) ?_ ps ts _ f dims hw h2 hl (by omega) hd
  intro a t j r dims ha hq hd hj
  exact ⟨list_type ha hj, rings_read depth ha hq.2 hq.1 hd hj⟩

end Tg.Gp
