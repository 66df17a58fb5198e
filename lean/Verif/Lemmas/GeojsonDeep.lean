import Verif.Lemmas.GeojsonDepth
import Verif.Lemmas.JsonText
/-! Texts that pass the validator with one level and that the parser sees as nested collections. -/
set_option linter.unusedSectionVars false
namespace Tg.Gp
open Json
open Wp (P Safe bind_ok safe_ok safe_err)
open Spec (nest nests view views)
open Spec.Json (Ws Val Elems Mems Chr Chrs Text TgStr TgUtf8 TgClose)

variable {sd : List Byte → F64 × Nat}

/-- The start of a collection; `a` and `b` are a colon and a comma or the other way round. Every string ends with `\`, this character and a quote: for the validator the string ends at the
backslash and the quote opens the next one, for the parser the backslash escapes the character. -/
def opening (a b : Byte) : List Byte :=
  txt "\"type\\" ++ a :: (txt "\"\\\"GeometryCollection\\" ++ b :: (txt "\"\\\"geometries\\" ++ a :: txt "\"["))

/-- What is in the array of a collection of `2 * n` further levels. -/
def inside : Nat → List Byte
  | 0 => []
  | n + 1 => txt "{\\" ++ (opening 0x2C#8 0x3A#8 ++ (txt "{\\" ++ (opening 0x3A#8 0x2C#8 ++ (inside n ++ txt "]}")) ++ txt "]}"))

/-- The text. -/
def deepText (n : Nat) : List Byte := 0x7B#8 :: (opening 0x3A#8 0x2C#8 ++ (inside n ++ txt "]\\}"))

/-- What the parser makes of it. -/
def deepGeom : Nat → Geom
  | 0 => .coll { isEmpty := true } true [] [] none
  | n + 1 => .coll {} true [.coll {} true [deepGeom n] [] none] [] none

/-- Brackets are balanced. -/
def Bal (l : List Byte) : Prop := ∀ k rev t, ∃ rev', countNest false k rev (l ++ t) = countNest false k rev' t + l.length

theorem bal_nil : Bal [] := fun k rev t => ⟨rev, rfl⟩

theorem nest_opening {a b : Byte} (h : (a, b) = (0x3A#8, 0x2C#8) ∨ (a, b) = (0x2C#8, 0x3A#8)) (k : Nat) (rev t : List Byte) :
    ∃ rev', countNest false k rev (opening a b ++ t) = countNest false (k + 1) rev' t + (opening a b).length := by
  rcases h with h | h <;> (cases h; exact ⟨_, rfl⟩)

/-- Nothing, or a backslash. -/
def Slash (l : List Byte) : Prop := l = [] ∨ l = [0x5C#8]

/-- A collection. -/
def collText (lead : List Byte) (a b : Byte) (inner tail : List Byte) : List Byte := 0x7B#8 :: (lead ++ (opening a b ++ (inner ++ 0x5D#8 :: (tail ++ [0x7D#8]))))

theorem nest_slash {l : List Byte} (h : Slash l) (k : Nat) (rev t : List Byte) : ∃ rev', countNest false k rev (l ++ t) = countNest false k rev' t + l.length := by
  rcases h with rfl | rfl
  · exact ⟨rev, rfl⟩
  · exact ⟨_, rfl⟩

/-- What is between the braces is balanced. -/
theorem bal_body {lead inner tail : List Byte} {a b : Byte} (hl : Slash lead) (h : (a, b) = (0x3A#8, 0x2C#8) ∨ (a, b) = (0x2C#8, 0x3A#8)) (hi : Bal inner) (ht : Slash tail) :
    Bal (lead ++ (opening a b ++ (inner ++ 0x5D#8 :: tail))) := by
  intro k rev t
  simp only [List.append_assoc, List.cons_append]
  obtain ⟨r1, e1⟩ := nest_slash hl k rev (opening a b ++ (inner ++ 0x5D#8 :: (tail ++ t)))
  obtain ⟨r2, e2⟩ := nest_opening h k r1 (inner ++ 0x5D#8 :: (tail ++ t))
  obtain ⟨r3, e3⟩ := hi (k + 1) r2 (0x5D#8 :: (tail ++ t))
  have e4 : countNest false (k + 1) r3 (0x5D#8 :: (tail ++ t)) = countNest false k (0x5D#8 :: r3) (tail ++ t) + 1 := rfl
  obtain ⟨r5, e5⟩ := nest_slash ht k (0x5D#8 :: r3) t
  refine ⟨r5, ?_⟩
  rw [e1, e2, e3, e4, e5]
  simp only [List.length_append, List.length_cons]; omega

theorem bal_coll {lead inner tail : List Byte} {a b : Byte} (hl : Slash lead) (h : (a, b) = (0x3A#8, 0x2C#8) ∨ (a, b) = (0x2C#8, 0x3A#8)) (hi : Bal inner) (ht : Slash tail) :
    Bal (collText lead a b inner tail) := by
  intro k rev t
  obtain ⟨r1, e1⟩ := bal_body hl h hi ht (k + 1) (0x7B#8 :: rev) (0x7D#8 :: t)
  refine ⟨0x7D#8 :: r1, ?_⟩
  have e0 : collText lead a b inner tail ++ t = 0x7B#8 :: ((lead ++ (opening a b ++ (inner ++ 0x5D#8 :: tail))) ++ 0x7D#8 :: t) := by simp [collText]
  have e2 : ∀ x, countNest false k rev (0x7B#8 :: x) = countNest false (k + 1) (0x7B#8 :: rev) x + 1 := fun _ => rfl
  have e3 : countNest false (k + 1) r1 (0x7D#8 :: t) = countNest false k (0x7D#8 :: r1) t + 1 := rfl
  rw [e0, e2, e1, e3]
  simp only [collText, List.length_append, List.length_cons, List.length_nil]; omega

/-- A value in brackets. -/
theorem here_nest {l : List Byte} (h : Bal l) (o c : Byte) (hc : c = 0x5D#8 ∨ c = 0x7D#8) (r : List Byte) : Here (some ⟨o :: (l ++ c :: r), 0, false⟩) (o :: (l ++ [c])) r := by
  refine ⟨_, rfl, by simp, ?_, by simp⟩
  obtain ⟨r1, e1⟩ := h 0 [o] (c :: r)
  rw [rawLen, if_neg (by simp), if_pos (by simp), nestLen, e1]
  have : countNest false 0 r1 (c :: r) = 1 := by rcases hc with rfl | rfl <;> rfl
  rw [this]; simp only [List.length_append, List.length_cons, List.length_nil]; omega

theorem here_coll {lead inner tail : List Byte} {a b : Byte} (hl : Slash lead) (h : (a, b) = (0x3A#8, 0x2C#8) ∨ (a, b) = (0x2C#8, 0x3A#8)) (hi : Bal inner) (ht : Slash tail) (r : List Byte) :
    Here (some ⟨collText lead a b inner tail ++ r, 0, false⟩) (collText lead a b inner tail) r := by
  have := here_nest (bal_body hl h hi ht) 0x7B#8 0x7D#8 (.inr rfl) r
  have e1 : 0x7B#8 :: ((lead ++ (opening a b ++ (inner ++ 0x5D#8 :: tail))) ++ 0x7D#8 :: r) = collText lead a b inner tail ++ r := by simp [collText]
  have e2 : 0x7B#8 :: ((lead ++ (opening a b ++ (inner ++ 0x5D#8 :: tail))) ++ [0x7D#8]) = collText lead a b inner tail := by simp [collText]
  rw [e1, e2] at this
  exact this

theorem bal_inside : ∀ n, Bal (inside n)
  | 0 => bal_nil
  | n + 1 => by
    have h1 := bal_coll (lead := [0x5C#8]) (tail := []) (.inr rfl) (.inl rfl) (bal_inside n) (.inl rfl)
    have h2 := bal_coll (lead := [0x5C#8]) (tail := []) (.inr rfl) (.inr rfl) h1 (.inl rfl)
    exact h2

theorem inside_succ (n : Nat) : inside (n + 1) = collText [0x5C#8] 0x2C#8 0x3A#8 (collText [0x5C#8] 0x3A#8 0x2C#8 (inside n) []) [] := rfl
theorem deep_eq (n : Nat) : deepText n = collText [] 0x3A#8 0x2C#8 (inside n) [0x5C#8] := by
  rw [deepText, collText]; rfl

/-- The pairs that the parser sees. -/
theorem coll_pairs {lead tail : List Byte} {a b : Byte} (hl : Slash lead) (h : (a, b) = (0x3A#8, 0x2C#8) ∨ (a, b) = (0x2C#8, 0x3A#8)) {inner : List Byte} (hi : Bal inner) (ht : Slash tail)
    (r : List Byte) : ∃ k1 v1 k2, pairs (some ⟨collText lead a b inner tail ++ r, 0, false⟩) = [(k1, some v1), (k2, some ⟨0x5B#8 :: (inner ++ 0x5D#8 :: (tail ++ 0x7D#8 :: r)), 0, false⟩)] ∧
      strEq k1 (txt "type") = true ∧ copyStr (some v1) 24 = txt "GeometryCollection" ∧ strEq k2 (txt "type") = false ∧ strEq k2 (txt "geometries") = true := by
  generalize hx : (tail ++ 0x7D#8 :: r) = x
  have hn : next (some ⟨0x5B#8 :: (inner ++ 0x5D#8 :: x), 0, false⟩) = none := by
    have := (here_nest hi 0x5B#8 0x5D#8 (.inl rfl) x).next
    rw [this, ← hx]
    rcases ht with rfl | rfl <;> rfl
  have e0 : collText lead a b inner tail ++ r = 0x7B#8 :: (lead ++ (opening a b ++ (inner ++ 0x5D#8 :: x))) := by rw [← hx]; simp [collText]
  have e1 : first (some ⟨0x7B#8 :: (lead ++ (opening a b ++ (inner ++ 0x5D#8 :: x))), 0, false⟩) = peekAny (opening a b ++ (inner ++ 0x5D#8 :: x)) := by
    rcases hl with rfl | rfl <;> rfl
  have key : ∀ y : List Byte, ∃ k1 v1 k2, peekAny (opening a b ++ y) = some k1 ∧ next (some k1) = some v1 ∧ next (some v1) = some k2 ∧ next (some k2) = some ⟨0x5B#8 :: y, 0, false⟩ ∧
      strEq (some k1) (txt "type") = true ∧ copyStr (some v1) 24 = txt "GeometryCollection" ∧ strEq (some k2) (txt "type") = false ∧ strEq (some k2) (txt "geometries") = true := by
    intro y
    rcases h with h | h <;> (cases h; exact ⟨_, _, _, rfl, rfl, rfl, rfl, rfl, rfl, rfl, rfl⟩)
  obtain ⟨k1, v1, k2, h1, h2, h3, h4, h5, h6, h7, h8⟩ := key (inner ++ 0x5D#8 :: x)
  refine ⟨some k1, v1, some k2, ?_, h5, h6, h7, h8⟩
  have hf : ∃ f, (collText lead a b inner tail ++ r).length + 1 = f + 3 := by rw [e0]; exact ⟨_, by simp [opening]; rfl⟩
  obtain ⟨f, hf⟩ := hf
  rw [pairs, hf, e0, e1, h1]
  rw [pairsLoop, h2, h3, pairsLoop, h4, hn, pairsLoop]

/-- One collection. -/
theorem coll_step {lead tail : List Byte} {a b : Byte} (hl : Slash lead) (h : (a, b) = (0x3A#8, 0x2C#8) ∨ (a, b) = (0x2C#8, 0x3A#8)) {inner : List Byte} (hi : Bal inner) (ht : Slash tail)
    (r : List Byte) (d : Nat) (req : Bool) {gs : List Geom}
    (hg : ∀ f x, inner.length < f → childLoop (fun j => parseGeojson sd d j false)
      (fun g => if g.flags.isFeature || g.flags.isFeatureCol then some ("'geometries' must only contain objects with " ++ onlyGeoms) else none) f (peekAny (inner ++ 0x5D#8 :: x)) = .ok gs) :
    parseGeojson sd (d + 1) (some ⟨collText lead a b inner tail ++ r, 0, false⟩) req =
      .ok (.coll { isEmpty := (peekAny (inner ++ 0x5D#8 :: (tail ++ 0x7D#8 :: r))).isNone } true gs [] none) := by
  obtain ⟨k1, v1, k2, h1, h2, h3, h4, h5⟩ := coll_pairs hl h hi ht r
  have ho : jtype (some ⟨collText lead a b inner tail ++ r, 0, false⟩) = .object := by rw [collText]; rfl
  rw [parseGeojson, if_neg (by rw [ho]; simp), objGet_find (by rw [collText]; rfl), h1, List.find?_cons, h2]
  dsimp only [Option.bind_some]
  rw [h3]
  rw [if_neg (by decide), if_neg (by decide), if_neg (by decide), if_neg (by decide), if_neg (by decide), if_neg (by decide), if_pos rfl, parseColl, takeBasic, h1]
  have hT := here_nest hi 0x5B#8 0x5D#8 (.inl rfl) (tail ++ 0x7D#8 :: r)
  have hm1 : ∀ acc v, takeMember "geometries" acc k1 v = .ok acc := by intro acc v; rw [takeMember, if_pos h2]
  have hm2 : ∀ acc v, takeMember "geometries" acc k2 v = .ok { acc with target := ensure v } := by intro acc v; rw [takeMember, if_neg (by rw [h4]; simp), if_pos h5]
  rw [takeLoop, hm1]
  simp only [P.bind]
  rw [takeLoop, hm2]
  simp only [P.bind]
  rw [takeLoop]
  simp only
  have he := hT.ensure
  have hfirst : first (ensure (some ⟨0x5B#8 :: (inner ++ 0x5D#8 :: (tail ++ 0x7D#8 :: r)), 0, false⟩)) = peekAny (inner ++ 0x5D#8 :: (tail ++ 0x7D#8 :: r)) := rfl
  have hsize : size (ensure (some ⟨0x5B#8 :: (inner ++ 0x5D#8 :: (tail ++ 0x7D#8 :: r)), 0, false⟩)) = (0x5B#8 :: (inner ++ 0x5D#8 :: (tail ++ 0x7D#8 :: r))).length := rfl
  have htype : jtype (ensure (some ⟨0x5B#8 :: (inner ++ 0x5D#8 :: (tail ++ 0x7D#8 :: r)), 0, false⟩)) = .array := rfl
  rw [if_neg (by rw [ensure]; simp), if_neg (by decide), if_neg (by rw [htype]; simp)]
  simp only
  rw [hfirst, hsize, hg _ _ (by simp only [List.length_cons, List.length_append]; omega)]
  rfl

theorem loop_one {d : Nat} {lead inner : List Byte} {a b : Byte} (hl : Slash lead) (h : (a, b) = (0x3A#8, 0x2C#8) ∨ (a, b) = (0x2C#8, 0x3A#8)) (hi : Bal inner) {g : Geom}
    (hg : ∀ r, parseGeojson sd d (some ⟨collText lead a b inner [] ++ r, 0, false⟩) false = .ok g) (hf : g.flags.isFeature = false ∧ g.flags.isFeatureCol = false) (f : Nat) (x : List Byte)
    (hlen : (collText lead a b inner []).length < f) :
    childLoop (fun j => parseGeojson sd d j false)
      (fun g => if g.flags.isFeature || g.flags.isFeatureCol then some ("'geometries' must only contain objects with " ++ onlyGeoms) else none) f (peekAny (collText lead a b inner [] ++ 0x5D#8 :: x)) = .ok [g] := by
  have hp : peekAny (collText lead a b inner [] ++ 0x5D#8 :: x) = some ⟨collText lead a b inner [] ++ 0x5D#8 :: x, 0, false⟩ := by rw [collText]; rfl
  have hn := (here_coll hl h hi (tail := []) (.inl rfl) (0x5D#8 :: x)).next
  obtain ⟨f, rfl⟩ : ∃ e, f = e + 2 := ⟨f - 2, by simp only [collText, List.length_cons, List.length_append] at hlen; omega⟩
  rw [hp, childLoop, hg]
  simp only [P.bind, hf.1, hf.2, Bool.or_self, Bool.false_eq_true, if_false]
  rw [hn]
  rfl

theorem deep_flags (n : Nat) : (deepGeom n).flags.isFeature = false ∧ (deepGeom n).flags.isFeatureCol = false := by cases n <;> exact ⟨rfl, rfl⟩

theorem deep_parse (n : Nat) : ∀ (lead tail r : List Byte) (req : Bool) (d : Nat), Slash lead → Slash tail → 2 * n < d →
    parseGeojson sd d (some ⟨collText lead 0x3A#8 0x2C#8 (inside n) tail ++ r, 0, false⟩) req = .ok (deepGeom n) := by
  induction n with
  | zero =>
    intro lead tail r req d hl ht hd
    obtain ⟨d, rfl⟩ : ∃ e, d = e + 1 := ⟨d - 1, by omega⟩
    refine (coll_step hl (.inl rfl) bal_nil ht r d req (gs := []) ?_).trans rfl
    intro f x hf
    obtain ⟨f, rfl⟩ : ∃ e, f = e + 1 := ⟨f - 1, by omega⟩
    rfl
  | succ n ih =>
    intro lead tail r req d hl ht hd
    obtain ⟨d, rfl⟩ : ∃ e, d = e + 2 := ⟨d - 2, by omega⟩
    rw [inside_succ]
    have h1 : ∀ r, parseGeojson sd (d + 1) (some ⟨collText [0x5C#8] 0x2C#8 0x3A#8 (collText [0x5C#8] 0x3A#8 0x2C#8 (inside n) []) [] ++ r, 0, false⟩) false =
        .ok (.coll {} true [deepGeom n] [] none) := by
      intro r
      refine (coll_step (.inr rfl) (.inr rfl) (bal_coll (.inr rfl) (.inl rfl) (bal_inside n) (.inl rfl)) (.inl rfl) r d false (gs := [deepGeom n]) ?_).trans rfl
      intro f x hf
      exact loop_one (.inr rfl) (.inl rfl) (bal_inside n) (fun r => ih [0x5C#8] [] r false d (.inr rfl) (.inl rfl) (by omega)) (deep_flags n) f x hf
    refine (coll_step hl (.inl rfl) (bal_inside (n + 1)) ht r (d + 1) req (gs := [.coll {} true [deepGeom n] [] none]) ?_).trans rfl
    intro f x hf
    exact loop_one (.inr rfl) (.inr rfl) (bal_coll (.inr rfl) (.inl rfl) (bal_inside n) (.inl rfl)) h1 ⟨rfl, rfl⟩ f x hf

theorem deep_nest (n : Nat) : nest (deepGeom n) = 2 * n := by
  induction n with
  | zero => rfl
  | succ n ih => simp only [deepGeom, nest, nests, ih]; omega

/-! ### The validator -/

theorem tg_str {cs : List Byte} (h : Chrs TgUtf8 cs) : TgStr (0x22#8 :: (cs ++ [0x5C#8])) := ⟨cs, _, h, .inr (.inl rfl), rfl⟩

/-- A character that is not special. -/
def plain (b : Byte) : Bool := decide (0x20 ≤ b.toNat) && decide (b.toNat < 0x80) && b != 0x22#8 && b != 0x5C#8

theorem plain_chrs {cs l : List Byte} (h : cs.all plain = true) (hl : Chrs TgUtf8 l) : Chrs TgUtf8 (cs ++ l) := by
  induction cs with
  | nil => exact hl
  | cons b cs ih =>
    simp only [List.all_cons, Bool.and_eq_true, plain, decide_eq_true_eq, bne_iff_ne] at h
    refine .cons [b] _ (.ascii b h.1.1.1.1 h.1.1.1.2 h.1.1.2 h.1.2) (ih ?_)
    simpa [plain] using h.2

theorem quote_chrs {l : List Byte} (hl : Chrs TgUtf8 l) : Chrs TgUtf8 (0x5C#8 :: 0x22#8 :: l) := .cons [0x5C#8, 0x22#8] l (.esc _ (by simp)) hl

theorem ws_nil : Ws [] := by simp [Ws]

/-- A member of two strings. -/
theorem mem_cons {k v l : List Byte} (hk : Chrs TgUtf8 k) (hv : Chrs TgUtf8 v) (hl : Mems TgStr 1 l) :
    Mems TgStr 1 (0x22#8 :: (k ++ 0x5C#8 :: 0x3A#8 :: 0x22#8 :: (v ++ 0x5C#8 :: 0x2C#8 :: l))) := by
  have := Mems.cons (S := TgStr) 1 [] _ [] [] _ [] l ws_nil (tg_str hk) ws_nil ws_nil (.str 0 _ (tg_str hv)) ws_nil hl
  simpa using this

theorem mem_one {k v : List Byte} (hk : Chrs TgUtf8 k) (hv : Chrs TgUtf8 v) :
    Mems TgStr 1 (0x22#8 :: (k ++ 0x5C#8 :: 0x3A#8 :: 0x22#8 :: (v ++ [0x5C#8]))) := by
  have := Mems.one (S := TgStr) 1 [] _ [] [] _ [] ws_nil (tg_str hk) ws_nil ws_nil (.str 0 _ (tg_str hv)) ws_nil
  simpa using this

theorem chrs_type : Chrs TgUtf8 (txt "type") := by simpa using plain_chrs (cs := txt "type") (l := []) (by decide) .nil
theorem chrs_gc : Chrs TgUtf8 (txt "\\\"GeometryCollection") := quote_chrs (plain_chrs (cs := txt "GeometryCollection") (l := []) (by decide) .nil)
theorem chrs_gs : Chrs TgUtf8 (txt "\\\"geometries") := quote_chrs (plain_chrs (cs := txt "geometries") (l := []) (by decide) .nil)
theorem chrs_open : Chrs TgUtf8 (txt "[{\\\"type") := by
  have := plain_chrs (cs := txt "[{") (by decide) (quote_chrs (plain_chrs (cs := txt "type") (l := []) (by decide) .nil))
  exact this

theorem deep_mems (n : Nat) : ∀ c : List Byte, c.all plain = true → Mems TgStr 1 (txt "\"\\\"geometries\\:\"[" ++ (inside n ++ (c ++ [0x5C#8]))) := by
  induction n with
  | zero =>
    intro c hc
    have := mem_one chrs_gs (v := 0x5B#8 :: c) (by simpa using plain_chrs (cs := 0x5B#8 :: c) (l := []) (by simp [hc]; decide) .nil)
    exact this
  | succ n ih =>
    intro c hc
    have h1 := ih (txt "]}]}" ++ c) (by simp [hc]; decide)
    have h2 := mem_cons chrs_gs chrs_open (mem_cons chrs_gc chrs_gs (mem_cons chrs_open chrs_gc h1))
    rw [inside]
    simp only [List.append_assoc, opening, List.cons_append] at h2 ⊢
    exact h2

theorem deep_flat (n : Nat) : ∃ l, Mems TgStr 1 l ∧ deepText n = 0x7B#8 :: (l ++ [0x7D#8]) := by
  refine ⟨_, mem_cons chrs_type chrs_gc (deep_mems n [0x5D#8] (by decide)), ?_⟩
  rw [deepText]
  simp only [List.append_assoc, opening, List.cons_append]
  rfl

theorem deep_valid (n : Nat) : jsonValidn (deepText n) = some true := by
  rw [jsonValidn_iff]
  obtain ⟨l, h1, h2⟩ := deep_flat n
  refine ⟨[], deepText n, [], ws_nil, ?_, ws_nil, by simp⟩
  rw [h2]; exact val_up (.obj 1 _ h1) (by omega)

/-- The parser builds as many levels as one likes out of a text whose JSON has two. -/
theorem deep_result (n : Nat) : tgParseGeojson sd (deepText n) = .geom (deepGeom n) := by
  unfold tgParseGeojson
  rw [deep_valid]
  have hp : parse (deepText n) = some ⟨collText [] 0x3A#8 0x2C#8 (inside n) [0x5C#8] ++ [], 0, false⟩ := by rw [← deep_eq, List.append_nil]; rfl
  have hl : ∀ n, 2 * n ≤ (inside n).length := by
    intro n
    induction n with
    | zero => simp
    | succ n ih => rw [inside]; simp only [List.length_append, opening, List.length_cons]; omega
  have := hl n
  simp only
  rw [hp, deep_parse n [] [0x5C#8] [] false _ (.inl rfl) (.inr rfl) (by simp only [deepText, List.length_cons, List.length_append]; omega)]

end Tg.Gp
