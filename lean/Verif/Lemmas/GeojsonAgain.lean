import Verif.Lemmas.ParsedJson
import Verif.Lemmas.GeojsonStore
/-! What the GeoJSON parser returns can be written, and is written in the same way when it is parsed again. -/
set_option linter.unusedSectionVars false
namespace Tg.Gp
open Spec Spec.Geojson Spec.Json Json
open Wp (P bind_ok)
attribute [-instance] instDecidableEqProd

variable {sd : List Byte → F64 × Nat}

/-! ### Flags -/

mutual
/-- What is marked as empty is empty; what is not a FeatureCollection has no Features. -/
def Tidy : Geom → Prop
  | .point fl _ | .line fl _ | .poly fl _ => fl.isEmpty = false
  | .gline fl l _ _ => fl.isEmpty = true → l = none
  | .gpoly fl p _ _ => fl.isEmpty = true → p = none
  | .mpoint fl ps _ _ => fl.isEmpty = true → ps.getD [] = []
  | .mline fl ps _ _ => fl.isEmpty = true → ps.getD [] = []
  | .mpoly fl ps _ _ => fl.isEmpty = true → ps.getD [] = []
  | .coll fl h gs c _ => h = true ∧ c = [] ∧ (fl.isEmpty = true → gs = []) ∧ Tidies gs ∧ (fl.isFeatureCol = false → ∀ g ∈ gs, g.flags.isFeature = false ∧ g.flags.isFeatureCol = false)
  | _ => True
/-- Every child. -/
def Tidies : List Geom → Prop
  | [] => True
  | g :: gs => Tidy g ∧ Tidies gs
end

theorem tidies_iff : ∀ {gs : List Geom}, Tidies gs ↔ ∀ g ∈ gs, Tidy g
  | [] => by simp [Tidies]
  | g :: gs => by rw [Tidies, tidies_iff]; simp

/-- Without parts. -/
def Hollow : Geom → Prop
  | .point .. | .line .. | .poly .. => False
  | .gline _ l _ _ => l = none
  | .gpoly _ p _ _ => p = none
  | .mpoint _ ps _ _ => ps.getD [] = []
  | .mline _ ps _ _ => ps.getD [] = []
  | .mpoly _ ps _ _ => ps.getD [] = []
  | .coll _ _ gs _ _ => gs = []
  | _ => True

theorem tidy_addFlags {g : Geom} {f : Flags} (h : Tidy g) (he : f.isEmpty = true → Hollow g) : Tidy (addFlags g f) := by
  cases g
  case point | line | poly =>
    simp only [addFlags, Tidy, orFlags, Bool.or_eq_false_iff] at h ⊢
    exact ⟨h, by simpa [Hollow] using he⟩
  case gline | gpoly | mpoint | mline | mpoly =>
    simp only [addFlags, Tidy, orFlags, Bool.or_eq_true] at h ⊢
    exact fun e => e.elim h he
  case coll =>
    simp only [addFlags, Tidy, orFlags, Bool.or_eq_true, Bool.or_eq_false_iff] at h ⊢
    exact ⟨h.1, h.2.1, fun e => e.elim h.2.2.1 he, h.2.2.2.1, fun e => h.2.2.2.2 e.1⟩
  all_goals trivial

theorem tidy_setX {g g' : Geom} {x : Option (List Byte)} (h : setX g x = .ok g') (hs : Tidy g) : Tidy g' := by
  unfold setX at h
  cases x with
  | none => cases h; exact hs
  | some x => cases g <;> simp only at h <;> cases h <;> exact hs

theorem tidy_finish {fl : Flags} {x : Option (List Byte)} {g g' : Geom} (h : finish fl x g = .ok g') (hs : Tidy g) (he : fl.isEmpty = true → Hollow g) : Tidy g' := tidy_setX h (tidy_addFlags hs he)

theorem posnLoop_none {depth f d : Nat} {j : Option J} {r : Nat × List (List F64)} (h : posnLoop sd depth f d j = .ok r) (hj : j.isNone = true) : r.2 = [] := by
  cases j with
  | some v => simp at hj
  | none =>
    cases f with
    | zero => cases h
    | succ f => cases h; rfl

theorem arrLoop_none {α : Type} {msg : String} {inner : Nat → Option J → P (Nat × α)} {f d : Nat} {j : Option J} {r : Nat × List α} (h : arrLoop msg inner f d j = .ok r) (hj : j.isNone = true) :
    r.2 = [] := by
  cases j with
  | some v => simp at hj
  | none =>
    cases f with
    | zero => cases h
    | succ f => cases h; rfl

theorem childLoop_none {child : Option J → P Geom} {chk : Geom → Option String} {f : Nat} {j : Option J} {gs : List Geom} (h : childLoop child chk f j = .ok gs) (hj : j.isNone = true) : gs = [] := by
  cases j with
  | some v => simp at hj
  | none =>
    cases f with
    | zero => cases h
    | succ f => cases h; rfl

theorem childLoop_all {child : Option J → P Geom} {chk : Geom → Option String} {Q : Geom → Prop} (hc : ∀ j g, child j = .ok g → chk g = none → Q g) :
    ∀ (f : Nat) (j : Option J) (gs : List Geom), childLoop child chk f j = .ok gs → ∀ g ∈ gs, Q g := by
  intro f
  induction f with
  | zero => intro j gs h; cases h
  | succ f ih =>
    intro j gs h
    cases j with
    | none => cases h; simp
    | some v =>
      rw [childLoop] at h
      obtain ⟨g, e1, h⟩ := bind_ok h
      split at h
      · cases h
      · rename_i hk
        obtain ⟨gs', e2, h⟩ := bind_ok h
        cases h
        intro g' hg
        rcases List.mem_cons.1 hg with rfl | hg
        · exact hc _ _ e1 hk
        · exact ih _ _ e2 _ hg

theorem dim_full (d : Nat) : (Wp.dimFlags d false).isEmpty = false := by
  unfold Wp.dimFlags
  split_ifs <;> rfl

theorem parsePoint_tidy {json : Option J} {req : Bool} {g : Geom} (h : parsePoint sd json req = .ok g) : Tidy g := by
  unfold parsePoint at h
  obtain ⟨b, hb, h⟩ := bind_ok h
  by_cases he : b.flags.isEmpty = true
  · rw [if_pos he] at h
    exact tidy_finish h (by trivial) fun _ => trivial
  rw [if_neg he] at h
  obtain ⟨ps, e1, h⟩ := bind_ok h
  by_cases h2 : ps.length < 2
  · rw [if_pos h2] at h; cases h
  rw [if_neg h2] at h
  exact tidy_finish h (by split_ifs <;> simp [Tidy]) (none_empty he)

theorem parseLine_tidy {json : Option J} {req : Bool} {g : Geom} (h : parseLine sd json req = .ok g) : Tidy g := by
  unfold parseLine at h
  obtain ⟨b, hb, h⟩ := bind_ok h
  by_cases he : b.flags.isEmpty = true
  · rw [if_pos he] at h
    exact tidy_finish h (fun _ => rfl) fun _ => rfl
  rw [if_neg he] at h
  obtain ⟨r, e1, h⟩ := bind_ok h
  exact tidy_finish h (by split_ifs <;> simp [Tidy, dim_full]) (none_empty he)

theorem parsePolygon_tidy {json : Option J} {req : Bool} {g : Geom} (h : parsePolygon sd json req = .ok g) : Tidy g := by
  unfold parsePolygon at h
  obtain ⟨b, hb, h⟩ := bind_ok h
  by_cases he : b.flags.isEmpty = true
  · rw [if_pos he] at h
    exact tidy_finish h (fun _ => rfl) fun _ => rfl
  rw [if_neg he] at h
  obtain ⟨r, e1, h⟩ := bind_ok h
  exact tidy_finish h (by split_ifs <;> simp [Tidy, dim_full]) (none_empty he)

theorem parseMPoint_tidy {json : Option J} {g : Geom} (h : parseMPoint sd json = .ok g) : Tidy g := by
  obtain ⟨b, hb, h⟩ := bind_ok h
  obtain ⟨-, -, f3⟩ := takeBasic_flags hb
  obtain ⟨r, e1, h⟩ := bind_ok h
  refine tidy_finish h (fun e => by rw [dim_full] at e; cases e) fun he => ?_
  rw [f3 (by decide)] at he
  obtain ⟨r', e2, e1⟩ := bind_ok e1
  have := posnLoop_none e2 he
  split at e1
  · cases e1
  · cases e1
    simp [Hollow, this]

theorem parseMLine_tidy {json : Option J} {g : Geom} (h : parseMLine sd json = .ok g) : Tidy g := by
  obtain ⟨b, hb, h⟩ := bind_ok h
  obtain ⟨-, -, f3⟩ := takeBasic_flags hb
  obtain ⟨r, e1, h⟩ := bind_ok h
  refine tidy_finish h (fun e => by rw [dim_full] at e; cases e) fun he => ?_
  rw [f3 (by decide)] at he
  simp [Hollow, arrLoop_none e1 he]

theorem parseMPoly_tidy {json : Option J} {g : Geom} (h : parseMPoly sd json = .ok g) : Tidy g := by
  obtain ⟨b, hb, h⟩ := bind_ok h
  obtain ⟨-, -, f3⟩ := takeBasic_flags hb
  obtain ⟨r, e1, h⟩ := bind_ok h
  refine tidy_finish h (fun e => by rw [dim_full] at e; cases e) fun he => ?_
  rw [f3 (by decide)] at he
  simp [Hollow, arrLoop_none e1 he]

theorem parseColl_tidy {child : Option J → P Geom} (hc : ∀ j g, child j = .ok g → Tidy g) {json : Option J} {g : Geom} (h : parseColl child json = .ok g) : Tidy g := by
  obtain ⟨b, hb, h⟩ := bind_ok h
  obtain ⟨-, -, f3⟩ := takeBasic_flags hb
  obtain ⟨gs, e1, h⟩ := bind_ok h
  refine tidy_finish h ⟨rfl, rfl, fun e => by simp at e, tidies_iff.2 (childLoop_all (fun j g h _ => hc j g h) _ _ _ e1), fun _ => childLoop_all (fun j g _ h => ?_) _ _ _ e1⟩ fun he => ?_
  · split at h
    · cases h
    · rename_i h0
      simpa using h0
  · rw [f3 (by decide)] at he
    exact childLoop_none e1 he

theorem parseFeatureColl_tidy {child : Option J → P Geom} (hc : ∀ j g, child j = .ok g → Tidy g) {json : Option J} {g : Geom} (h : parseFeatureColl child json = .ok g) : Tidy g := by
  obtain ⟨b, hb, h⟩ := bind_ok h
  obtain ⟨-, -, f3⟩ := takeBasic_flags hb
  obtain ⟨gs, e1, h⟩ := bind_ok h
  refine tidy_finish h ⟨rfl, rfl, fun e => by simp at e, tidies_iff.2 (childLoop_all (fun j g h _ => hc j g h) _ _ _ e1), fun e => by simp at e⟩ fun he => ?_
  rw [f3 (by decide)] at he
  exact childLoop_none e1 he

theorem parseFeature_tidy {child : Option J → Bool → P Geom} (hc : ∀ j r g, child j r = .ok g → Tidy g) {json : Option J} {g : Geom} (h : parseFeature child json = .ok g) : Tidy g := by
  unfold parseFeature at h
  obtain ⟨b, hb, h⟩ := bind_ok h
  obtain ⟨g0, e1, h⟩ := bind_ok h
  have hg0 : Tidy g0 ∧ (b.flags.isEmpty = true → Hollow (addFlags g0 { isFeature := true })) := by
    split_ifs at e1 with he
    · cases e1; exact ⟨by trivial, fun _ => by trivial⟩
    · exact ⟨hc _ _ _ e1, none_empty he⟩
  by_cases hf : (g0.flags.isFeature || g0.flags.isFeatureCol) = true
  · rw [if_pos hf] at h; cases h
  rw [if_neg hf] at h
  dsimp only at h
  have h1 : Tidy (addFlags g0 { isFeature := true }) := tidy_addFlags hg0.1 (by simp)
  split at h
  · exact tidy_finish h h1 hg0.2
  · exact tidy_finish h h1 hg0.2

theorem parseGeojson_tidy : ∀ (d : Nat) (json : Option J) (req : Bool) (g : Geom), parseGeojson sd d json req = .ok g → Tidy g := by
  intro d
  induction d with
  | zero => intro json req g h; cases h
  | succ d ih =>
    intro json req g h
    rw [parseGeojson] at h
    by_cases h0 : jtype json ≠ .object
    · rw [if_pos h0] at h; cases h
    rw [if_neg h0] at h
    split at h
    · cases h
    · dsimp only at h
      split_ifs at h
      · exact parsePoint_tidy h
      · exact parseLine_tidy h
      · exact parsePolygon_tidy h
      · exact parseMPoint_tidy h
      · exact parseMLine_tidy h
      · exact parseMPoly_tidy h
      · exact parseColl_tidy (fun j g h => ih j false g h) h
      · exact parseFeature_tidy ih h
      · exact parseFeatureColl_tidy (fun j g h => ih j false g h) h

theorem tgParseGeojson_tidy {data : List Byte} {g : Geom} (h : tgParseGeojson sd data = .geom g) : Tidy g := by
  unfold tgParseGeojson at h
  split at h
  · cases h
  · cases h
  · split at h
    · cases h
    · cases h
    · rename_i g' h1
      cases h
      exact parseGeojson_tidy _ _ _ _ h1

/-! ### What is parsed can be written -/

theorem others_in {names : List String} {ms : List (List Byte × List Byte)} {m : List Byte × List Byte} (h : m ∈ others names ms) : m ∈ ms ∧ ∀ s ∈ names, ¬ Named m.1 s := by
  unfold others at h
  simpa using List.mem_filter.1 h

theorem others_stores {names : List String} {ms : List (List Byte × List Byte)} {t : List Byte} (h : Spec.Geojson.IsObj ms t) : Foreign names (others names ms) := by
  intro m hm
  obtain ⟨h1, h2⟩ := others_in hm
  exact ⟨(h.1 m h1).1, (h.1 m h1).2, h2⟩

theorem kept_in {ms : List (List Byte × List Byte)} {m : List Byte × List Byte} (h : m ∈ kept ms) :
    m ∈ ms ∧ ¬ Named m.1 "type" ∧ ¬ Named m.1 "geometry" ∧ ¬ (Named m.1 "properties" ∧ (m.2 = txt "null" ∨ Spec.Geojson.IsObj [] m.2)) := by
  unfold kept at h
  simpa only [decide_eq_true_eq] using List.mem_filter.1 h

mutual
theorem keeps_dressed : ∀ (g : Geom) (t : List Byte) (v : GV), Keeps t g → Tidy g → view g = some v → g.flags.isFeatureCol = false → Dressed g
  | .coll fl h gs c x, t, v, hk, ht, hv, hf => by
    rw [Keeps] at hk
    obtain ⟨ms, c', ts, h1, h2, h3, h4, h5⟩ := hk
    rw [Tidy] at ht
    obtain ⟨t1, t2, t3, t4, t5⟩ := ht
    have hgs : gs = [] ∨ ∃ vs, views gs = some vs := by
      obtain ⟨vs, -, h⟩ := coll_view hv
      rcases h with rfl | h
      · rw [view] at hv
        split at hv
        · cases hv
        · split at hv
          · rename_i h0
            left
            exact t3 (by simpa [t1] using h0)
          · cases hg : views gs with
            | none => rw [hg] at hv; simp at hv
            | some us => exact .inr ⟨us, rfl⟩
      · exact .inr ⟨vs, h⟩
    rw [Dressed]
    refine ⟨⟨_, others_stores h1, h4⟩, hf, fun h => ?_, ?_⟩
    · rcases h with h | h
      · exact t3 h
      · rw [t1] at h; cases h
    · rcases hgs with rfl | ⟨vs, hvs⟩
      · rw [Dresseds]; trivial
      · exact keeps_dresseds gs ts vs h5 t4 hvs (t5 hf)
  | .point _ _, _, _, _, _, _, _ | .line _ _, _, _, _, _, _, _ | .poly _ _, _, _, _, _, _, _ => by rw [Dressed]; trivial
  | .gpoint _ _ _ _ _, t, v, hk, ht, hv, hf => by simp only [Keeps] at hk; obtain ⟨ms, h1, h2⟩ := hk; rw [Dressed]; exact ⟨_, others_stores h1, h2⟩
  | .gline _ _ _ _, t, v, hk, ht, hv, hf => by simp only [Keeps] at hk; obtain ⟨ms, h1, h2⟩ := hk; rw [Dressed]; exact ⟨_, others_stores h1, h2⟩
  | .gpoly _ _ _ _, t, v, hk, ht, hv, hf => by simp only [Keeps] at hk; obtain ⟨ms, h1, h2⟩ := hk; rw [Dressed]; exact ⟨_, others_stores h1, h2⟩
  | .mpoint _ _ _ _, t, v, hk, ht, hv, hf => by simp only [Keeps] at hk; obtain ⟨ms, h1, h2⟩ := hk; rw [Dressed]; exact ⟨⟨_, others_stores h1, h2⟩, ht⟩
  | .mline _ _ _ _, t, v, hk, ht, hv, hf => by simp only [Keeps] at hk; obtain ⟨ms, h1, h2⟩ := hk; rw [Dressed]; exact ⟨⟨_, others_stores h1, h2⟩, ht⟩
  | .mpoly _ _ _ _, t, v, hk, ht, hv, hf => by simp only [Keeps] at hk; obtain ⟨ms, h1, h2⟩ := hk; rw [Dressed]; exact ⟨⟨_, others_stores h1, h2⟩, ht⟩
  | .err _, t, v, hk, ht, hv, hf => by simp [view] at hv
theorem keeps_dresseds : ∀ (gs : List Geom) (ts : List (List Byte)) (vs : List GV), KeepAll ts gs → Tidies gs → views gs = some vs →
    (∀ g ∈ gs, g.flags.isFeature = false ∧ g.flags.isFeatureCol = false) → Dresseds gs
  | [], _, _, _, _, _, _ => by rw [Dresseds]; trivial
  | g :: gs, ts, vs, hk, ht, hv, hf => by
    obtain ⟨t, ts, rfl, h1, h2⟩ := hk
    obtain ⟨v, vs, rfl, a1, a2⟩ := views_cons hv
    rw [Tidies] at ht
    rw [Dresseds]
    exact ⟨(hf g (by simp)).1, keeps_dressed g t v h1 ht.1 a1 (hf g (by simp)).2, keeps_dresseds gs ts vs h2 ht.2 a2 fun g hg => hf g (by simp [hg])⟩
end

theorem once_sub {ms ms' : List (List Byte × List Byte)} {s : String} (h : ms'.Sublist ms) (ho : Once ms s) : Once ms' s := List.Pairwise.sublist h ho

theorem once_null {ms : List (List Byte × List Byte)} {s : String} (h : Once ms s) {m m' : List Byte × List Byte} (hm : m ∈ ms) (hm' : m' ∈ ms) (h1 : Named m.1 s) (h2 : Named m'.1 s) : m = m' := by
  by_contra hne
  unfold Once at h
  obtain ⟨i, hi, rfl⟩ := List.mem_iff_getElem.1 hm
  obtain ⟨k, hk, rfl⟩ := List.mem_iff_getElem.1 hm'
  rw [List.pairwise_iff_getElem] at h
  rcases Nat.lt_trichotomy i k with hlt | rfl | hlt
  · exact h i k hi hk hlt ⟨h1, h2⟩
  · exact hne rfl
  · exact h k i hk hi hlt ⟨h2, h1⟩

theorem tidy_withExtra {x : Option (List Byte)} {g : Geom} (h : Tidy g) : Tidy (withExtra x g) := by cases g <;> exact h

/-- A Feature that was parsed. -/
theorem keeps_stored {t c : List Byte} {g : Geom} {v : GV} {ms : List (List Byte × List Byte)} {x : Option (List Byte)} (h1 : Spec.Geojson.IsObj ms t) (h2 : FeatureMembers ms)
    (hsp : ∀ m ∈ ms, (Named m.1 "id" → m.1 = txt "\"id\"") ∧ (Named m.1 "properties" → m.1 = txt "\"properties\""))
    (h3 : Spec.Geojson.extraOf g = both (extraText (kept ms)) x) (h4 : g.flags.isFeature = true) (h5 : g.flags.isFeatureCol = false)
    (h6 : g.flags.nullProps = true ↔ ∃ m ∈ ms, Named m.1 "properties" ∧ m.2 = txt "null") (h7 : g.flags.unlocated = true ↔ c = txt "null")
    (h8 : if c = txt "null" then x = none else Keeps c (withExtra x g)) (ht : Tidy g) (hv : view g = some v) (hn : c = txt "null" → v = .point false false none) : Stored g (kept ms) x where
  feature := h4
  single := h5
  extra := h3
  foreign m hm := by
    obtain ⟨k1, k2, k3, -⟩ := kept_in hm
    refine ⟨(h1.1 m k1).1, (h1.1 m k1).2, fun s hs => ?_⟩
    simp only [List.mem_cons, List.not_mem_nil, or_false] at hs
    rcases hs with rfl | rfl
    · exact k2
    · exact k3
  members := ⟨once_sub (by unfold kept; exact List.filter_sublist) h2.1, once_sub (by unfold kept; exact List.filter_sublist) h2.2.1, fun m hm => h2.2.2 m (kept_in hm).1⟩
  spelled m hm := hsp m (kept_in hm).1
  said m hm hp := by
    obtain ⟨-, -, -, k⟩ := kept_in hm
    exact ⟨fun e => k ⟨hp, .inl e⟩, fun e => k ⟨hp, .inr e⟩⟩
  nulls hnp m hm hp := by
    obtain ⟨m', k1, k2, k3⟩ := h6.1 hnp
    obtain ⟨e1, -, -, k⟩ := kept_in hm
    obtain rfl := once_null h2.1 e1 k1 hp k2
    exact k ⟨hp, .inl k3⟩
  geometry := by
    by_cases hc : c = txt "null"
    · rw [if_pos hc] at h8
      rw [if_pos (h7.2 hc)]
      exact ⟨h8, by rw [hv, hn hc]⟩
    · rw [if_neg hc] at h8
      rw [if_neg fun h => hc (h7.1 h)]
      exact keeps_dressed _ c v h8 (tidy_withExtra ht) (by rw [view_withExtra, hv]) (by rw [flags_withExtra, h5])

/-! ### Reading again changes nothing -/

mutual
theorem reread_fixed : ∀ v : GV, ZFirst v → reread (zForM (reread v)) = reread v
  | .point z m (some p), h => by
    rw [ZFirst] at h
    have : (z || m) = z ∧ (z && m) = m := by cases z <;> cases m <;> simp_all
    simp only [reread, zForM, this.1, this.2]
  | .point _ _ none, _ => by simp only [reread, zForM]
  | .line z m ps, h => by
    rw [ZFirst] at h
    by_cases hp : ps = []
    · simp [reread, zForM, hp]
    · have h := h.resolve_left hp
      have : (z || m) = z ∧ (z && m) = m := by cases z <;> cases m <;> simp_all
      simp [reread, zForM, hp, this.1, this.2]
  | .poly z m ps, h => by
    rw [ZFirst] at h
    by_cases hp : ps = []
    · simp [reread, zForM, hp]
    · have h := h.resolve_left hp
      have : (z || m) = z ∧ (z && m) = m := by cases z <;> cases m <;> simp_all
      simp [reread, zForM, hp, this.1, this.2]
  | .mpoint z m ps, h => by
    rw [ZFirst] at h
    by_cases hp : ps = []
    · simp [reread, zForM, hp]
    · have h := h.resolve_left hp
      have : (z || m) = z ∧ (z && m) = m := by cases z <;> cases m <;> simp_all
      simp [reread, zForM, hp, this.1, this.2]
  | .mline z m ps, h => by
    rw [ZFirst] at h
    by_cases hp : ps = []
    · simp [reread, zForM, hp]
    · have h := h.resolve_left hp
      have : (z || m) = z ∧ (z && m) = m := by cases z <;> cases m <;> simp_all
      simp [reread, zForM, hp, this.1, this.2]
  | .mpoly z m ps, h => by
    rw [ZFirst] at h
    by_cases hp : ps = []
    · simp [reread, zForM, hp]
    · have h := h.resolve_left hp
      have : (z || m) = z ∧ (z && m) = m := by cases z <;> cases m <;> simp_all
      simp [reread, zForM, hp, this.1, this.2]
  | .coll gs, h => by rw [ZFirst] at h; rw [reread, zForM, reread, rereads_fixed gs h]
theorem rereads_fixed : ∀ vs : List GV, ZFirsts vs → rereads (zForMs (rereads vs)) = rereads vs
  | [], _ => rfl
  | v :: vs, h => by rw [ZFirsts] at h; rw [rereads, zForMs, rereads, reread_fixed v h.1, rereads_fixed vs h.2]
end

section
variable {N : List Byte → F64 → Prop} {num : F64 → List Byte}

mutual
theorem reread_text : ∀ v : GV, text num (reread v) = text num v
  | .point _ _ (some _) | .point _ _ none => by simp only [reread, Geojson.text]
  | .line _ _ ps | .poly _ _ ps | .mpoint _ _ ps | .mline _ _ ps | .mpoly _ _ ps => by
    rw [reread]
    split_ifs with h
    · subst h; simp only [Geojson.text]
    · rfl
  | .coll gs => by rw [reread, Geojson.text, Geojson.text, rereads_text gs]
theorem rereads_text : ∀ vs : List GV, texts num (rereads vs) = texts num vs
  | [] => rfl
  | v :: vs => by rw [rereads, texts, texts, reread_text v, rereads_text vs]
end

mutual
theorem reread_levels : ∀ v : GV, levels (reread v) = levels v
  | .point _ _ (some _) | .point _ _ none => by simp only [reread, levels]
  | .line _ _ ps | .poly _ _ ps | .mpoint _ _ ps | .mline _ _ ps | .mpoly _ _ ps => by
    rw [reread]
    split_ifs with h
    · subst h; simp only [levels]
    · rfl
  | .coll gs => by rw [reread, levels, levels, rereads_levels gs]
theorem rereads_levels : ∀ vs : List GV, levelss (rereads vs) = levelss vs
  | [] => rfl
  | v :: vs => by rw [rereads, levelss, levelss, reread_levels v, rereads_levels vs]
end

mutual
theorem reread_wf : ∀ v : GV, Wkt.Wf v → Wkt.Wf (reread v)
  | .point _ _ (some _), h => by simpa only [reread] using h
  | .point _ _ none, h => by simp only [reread, Wkt.Wf]
  | .line _ _ ps, h | .poly _ _ ps, h | .mpoint _ _ ps, h | .mline _ _ ps, h | .mpoly _ _ ps, h => by
    rw [reread]
    split_ifs with h0
    · simp [Wkt.Wf]
    · exact h
  | .coll gs, h => by rw [Wkt.Wf] at h; rw [reread, Wkt.Wf]; exact rereads_wf gs h
theorem rereads_wf : ∀ vs : List GV, Wkt.Wfs vs → Wkt.Wfs (rereads vs)
  | [], _ => trivial
  | v :: vs, h => by rw [Wkt.Wfs] at h; rw [rereads, Wkt.Wfs]; exact ⟨reread_wf v h.1, rereads_wf vs h.2⟩
end

mutual
theorem reread_coords {Q : F64 → Prop} : ∀ v : GV, Wkt.AllCoords Q v → Wkt.AllCoords Q (reread v)
  | .point _ _ (some _), h => by simpa only [reread] using h
  | .point _ _ none, h => by simp only [reread, Wkt.AllCoords]
  | .line _ _ ps, h | .poly _ _ ps, h | .mpoint _ _ ps, h | .mline _ _ ps, h | .mpoly _ _ ps, h => by
    rw [reread]
    split_ifs with h0
    · simp [Wkt.AllCoords]
    · exact h
  | .coll gs, h => by rw [Wkt.AllCoords] at h; rw [reread, Wkt.AllCoords]; exact rereads_coords gs h
theorem rereads_coords {Q : F64 → Prop} : ∀ vs : List GV, Wkt.AllCoordss Q vs → Wkt.AllCoordss Q (rereads vs)
  | [], _ => trivial
  | v :: vs, h => by rw [Wkt.AllCoordss] at h; rw [rereads, Wkt.AllCoordss]; exact ⟨reread_coords v h.1, rereads_coords vs h.2⟩
end

theorem jsonT_unfeat {g : Geom} (he : ∀ e, g ≠ .err e) : jsonT num (unfeat g) = baseT {} (Spec.Geojson.extraOf g) (jsonT num (plainOf g)) := by
  by_cases hb : Boxed g
  · rw [jsonT_boxed ((boxed_unfeat g).2 hb), extra_unfeat, plain_unfeat, baseT, baseT, flag_unfeat]
    simp
  · have : Spec.Geojson.extraOf g = none := by cases g <;> first | rfl | exact absurd trivial hb
    rw [this, baseT_none rfl, jsonT_base (fun h => hb ((boxed_unfeat g).1 h)) (by intro e h; cases g <;> first | exact absurd rfl (he _) | cases h), featT_plain (flag_unfeat g), plain_unfeat]

theorem coll_dressed {fl : Flags} {h : Bool} {gs : List Geom} {c : List F64} {x : Option (List Byte)} {v : GV} (hv : view (.coll fl h gs c x) = some v) (he : fl.isEmpty = true ∨ h = false → gs = []) :
    ∃ vs, v = .coll vs ∧ views gs = some vs ∧ (if h then jsonTs num gs else []) = jsonTs num gs := by
  rw [view] at hv
  by_cases hz : (fl.hasZ || fl.hasM) = true
  · rw [if_pos hz] at hv; simp at hv
  rw [if_neg hz] at hv
  by_cases h0 : (!h || fl.isEmpty) = true
  · rw [if_pos h0] at hv
    have hgs : gs = [] := he (by revert h0; cases h <;> simp)
    subst hgs
    refine ⟨[], by simpa using hv.symm, by simp [views], by simp [jsonTs]⟩
  · rw [if_neg h0] at hv
    have hm : h = true := by revert h0; cases h <;> simp
    cases hg : views gs with
    | none => rw [hg] at hv; simp at hv
    | some vs =>
      rw [hg] at hv
      exact ⟨vs, by simpa using hv.symm, rfl, by rw [if_pos hm]⟩

theorem single_text {g g' : Geom} {v : GV} (hs : Single g) (hd : Dressed g) (hd' : Dressed g') (hv : view g = some v) (hv' : view g' = some (reread (zForM v))) (hx : SameExtra g g') :
    jsonT num (unfeat g) = jsonT num (unfeat g') := by
  have hs' : Single g' := by
    cases g'
    case coll =>
      obtain ⟨vs, e, -⟩ := coll_view hv'
      obtain ⟨us, e, -⟩ := reread_coll e
      exact absurd e (single_view hs hv us)
    case err => simp [view] at hv'
    all_goals trivial
  rw [jsonT_unfeat (by rintro e rfl; exact hs), jsonT_unfeat (by rintro e rfl; exact hs'), same_extraOf hx, jsonT_view num (plainOf g) v (by rw [view_plain, hv]) (plain_bare hs hd),
    jsonT_view num (plainOf g') _ (by rw [view_plain, hv']) (plain_bare hs' hd'), reread_text, zForM_text]

mutual
theorem same_text : ∀ (g g' : Geom) (v : GV), Dressed g → Dressed g' → view g = some v → view g' = some (reread (zForM v)) → SameExtra g g' → jsonT num (unfeat g) = jsonT num (unfeat g')
  | .coll fl h gs c x, g', v, hd, hd', hv, hv', hx => by
    rw [SameExtra] at hx
    obtain ⟨fl', h', gs', c', rfl, hx⟩ := hx
    rw [Dressed] at hd hd'
    obtain ⟨-, d2, d3, d4⟩ := hd
    obtain ⟨-, e2, e3, e4⟩ := hd'
    obtain ⟨vs, rfl, hvs, k⟩ := coll_dressed (num := num) hv d3
    obtain ⟨vs', e, hvs', k'⟩ := coll_dressed (num := num) hv' e3
    rw [zForM, reread] at e
    cases e
    have := same_texts gs gs' vs d4 e4 hvs hvs' hx
    rw [jsonT_unfeat (by simp), jsonT_unfeat (by simp), plainOf, plainOf, jsonT, jsonT, baseT_none rfl, baseT_none rfl, k, k', this]
    dsimp only
    rw [d2, e2]
    rfl
  | .point _ _, g', v, hd, hd', hv, hv', hx => single_text trivial hd hd' hv hv' hx
  | .line _ _, g', v, hd, hd', hv, hv', hx => single_text trivial hd hd' hv hv' hx
  | .poly _ _, g', v, hd, hd', hv, hv', hx => single_text trivial hd hd' hv hv' hx
  | .gpoint _ _ _ _ _, g', v, hd, hd', hv, hv', hx => single_text trivial hd hd' hv hv' hx
  | .gline _ _ _ _, g', v, hd, hd', hv, hv', hx => single_text trivial hd hd' hv hv' hx
  | .gpoly _ _ _ _, g', v, hd, hd', hv, hv', hx => single_text trivial hd hd' hv hv' hx
  | .mpoint _ _ _ _, g', v, hd, hd', hv, hv', hx => single_text trivial hd hd' hv hv' hx
  | .mline _ _ _ _, g', v, hd, hd', hv, hv', hx => single_text trivial hd hd' hv hv' hx
  | .mpoly _ _ _ _, g', v, hd, hd', hv, hv', hx => single_text trivial hd hd' hv hv' hx
  | .err _, _, _, _, _, hv, _, _ => by simp [view] at hv
theorem same_texts : ∀ (gs gs' : List Geom) (vs : List GV), Dresseds gs → Dresseds gs' → views gs = some vs → views gs' = some (rereads (zForMs vs)) → SameExtras gs gs' →
    jsonTs num gs = jsonTs num gs'
  | [], gs', vs, _, _, _, _, hx => by rw [SameExtras] at hx; rw [hx]
  | g :: gs, gs', vs, hd, hd', hv, hv', hx => by
    rw [SameExtras] at hx
    obtain ⟨g', gs', rfl, h1, h2⟩ := hx
    obtain ⟨v, vs, rfl, a1, a2⟩ := views_cons hv
    obtain ⟨v', vs', e, b1, b2⟩ := views_cons hv'
    rw [zForMs, rereads] at e
    cases e
    rw [Dresseds] at hd hd'
    have k := same_text g g' v hd.2.1 hd'.2.1 a1 b1 h1
    rw [unfeat_self hd.1, unfeat_self hd'.1] at k
    rw [jsonTs, jsonTs, k, same_texts gs gs' vs hd.2.2 hd'.2.2 a2 b2 h2]
end

/-! ### Levels and characters -/

/-- Without the last character of Unicode. -/
def Clean (t : List Byte) : Prop := ¬ ([0xF4, 0x8F, 0xBF, 0xBF] : List Byte) <:+: t
/-- JSON of at most so many levels that tg accepts. -/
def Good (n : Nat) (t : List Byte) : Prop := Val Str n t ∧ Clean t

theorem Good.up {n m : Nat} {t : List Byte} (h : Good n t) (hn : n ≤ m) : Good m t := ⟨val_up h.1 hn, h.2⟩

theorem clean_sub {s t : List Byte} (h : s <:+: t) (ht : Clean t) : Clean s := fun hs => ht (hs.trans h)

theorem clean_mid {b : Byte} (hb : b.toNat < 0x80) {a c : List Byte} (ha : Clean a) (hc : Clean c) : Clean (a ++ b :: c) := by
  have hn : b ∉ ([0xF4, 0x8F, 0xBF, 0xBF] : List Byte) := by
    intro h
    simp only [List.mem_cons, List.not_mem_nil, or_false] at h
    rcases h with rfl | rfl | rfl | rfl <;> revert hb <;> decide
  generalize hpat : ([0xF4, 0x8F, 0xBF, 0xBF] : List Byte) = pat at hn
  have hp : pat ≠ [] := by rw [← hpat]; simp
  unfold Clean at ha hc ⊢
  rw [hpat] at ha hc ⊢
  rintro ⟨p, q, e⟩
  rw [List.append_assoc] at e
  rcases List.append_eq_append_iff.1 e with ⟨r, rfl, e1⟩ | ⟨r, rfl, e1⟩
  · rcases List.append_eq_append_iff.1 e1 with ⟨s, rfl, -⟩ | ⟨s, e', e2⟩
    · exact ha ⟨p, s, by simp⟩
    · cases s with
      | nil => exact ha ⟨p, [], by simp [e']⟩
      | cons x s =>
        rw [List.cons_append, List.cons.injEq] at e2
        exact hn (by rw [e', e2.1]; simp)
  · cases r with
    | nil =>
      cases pat with
      | nil => exact hp rfl
      | cons x pat =>
        rw [List.nil_append, List.cons_append, List.cons.injEq] at e1
        exact hn (by rw [e1.1]; simp)
    | cons x r =>
      rw [List.cons_append, List.cons.injEq] at e1
      exact hc ⟨r, q, by rw [e1.2]; simp⟩

theorem clean_nil : Clean [] := by
  rintro ⟨p, q, e⟩
  simp at e

theorem clean_tame : ∀ {t : List Byte}, (∀ b ∈ t, Tame b) → Clean t
  | [], _ => clean_nil
  | b :: t, h => by simpa using clean_mid (a := []) (h b (by simp)).1 clean_nil (clean_tame fun x hx => h x (by simp [hx]))

theorem Fits.good {n : Nat} {t : List Byte} (h : Fits n t) : Good n t := ⟨h.1, clean_tame h.2⟩

theorem clean_each : ∀ {ts : List (List Byte)}, (∀ t ∈ ts, Clean t) → ∀ {a : List Byte}, Clean a → Clean (a ++ eachAfter 0x2C#8 ts)
  | [], _, a, ha => by simpa [eachAfter] using ha
  | t :: ts, h, a, ha => by
    rw [eachAfter]
    exact clean_mid (by decide) ha (clean_each (fun u hu => h u (by simp [hu])) (h t (by simp)))

theorem clean_bracket {lb rb : Byte} (hl : lb.toNat < 0x80) (hr : rb.toNat < 0x80) {ts : List (List Byte)} (h : ∀ t ∈ ts, Clean t) : Clean (bracket lb rb ts) := by
  have : Clean (join 0x2C#8 ts) := by
    cases ts with
    | nil => exact clean_nil
    | cons t ts => exact clean_each (fun u hu => h u (by simp [hu])) (h t (by simp))
  exact clean_mid (a := []) hl clean_nil (clean_mid hr this clean_nil)

theorem pairs_infix {ms : List (List Byte × List Byte)} {l : List Byte} (h : Pairs ms l) : ∀ m ∈ ms, m.1 <:+: l ∧ m.2 <:+: l := by
  induction h with
  | one w k w1 w2 v w3 =>
    intro m hm
    rw [List.mem_singleton] at hm
    subst hm
    exact ⟨⟨w, w1 ++ 0x3A#8 :: (w2 ++ (v ++ w3)), by simp⟩, ⟨w ++ (k ++ (w1 ++ 0x3A#8 :: w2)), w3, by simp⟩⟩
  | cons w k w1 w2 v w3 l ms _ _ _ _ _ ih =>
    intro m hm
    rcases List.mem_cons.1 hm with rfl | hm
    · exact ⟨⟨w, w1 ++ 0x3A#8 :: (w2 ++ (v ++ (w3 ++ 0x2C#8 :: l))), by simp⟩, ⟨w ++ (k ++ (w1 ++ 0x3A#8 :: w2)), w3 ++ 0x2C#8 :: l, by simp⟩⟩
    · have hl : l <:+: w ++ (k ++ (w1 ++ 0x3A#8 :: (w2 ++ (v ++ (w3 ++ 0x2C#8 :: l))))) := ⟨w ++ (k ++ (w1 ++ 0x3A#8 :: (w2 ++ (v ++ (w3 ++ [0x2C#8]))))), [], by simp⟩
      exact ⟨(ih m hm).1.trans hl, (ih m hm).2.trans hl⟩

theorem items_infix {vs : List (List Byte)} {l : List Byte} (h : Items vs l) : ∀ v ∈ vs, v <:+: l := by
  induction h with
  | one w v w' =>
    intro u hu
    rw [List.mem_singleton] at hu
    subst hu
    exact ⟨w, w', by simp⟩
  | cons w v w' l vs _ _ _ ih =>
    intro u hu
    rcases List.mem_cons.1 hu with rfl | hu
    · exact ⟨w, w' ++ 0x2C#8 :: l, by simp⟩
    · exact (ih u hu).trans ⟨w ++ (v ++ (w' ++ [0x2C#8])), [], by simp⟩

theorem obj_good {n : Nat} {ms : List (List Byte × List Byte)} {t : List Byte} (h : Spec.Geojson.IsObj ms t) (ht : Good n t) : ∃ k, n = k + 1 ∧ ∀ m ∈ ms, Str m.1 ∧ Clean m.1 ∧ Good k m.2 := by
  obtain ⟨k, rfl, h1⟩ := obj_inv h ht.1
  refine ⟨k, rfl, fun m hm => ?_⟩
  obtain ⟨h2, l, hl, rfl⟩ := h
  have hp : Pairs ms l := hl.resolve_left (by rintro ⟨rfl, -⟩; simp at hm)
  have hi : l <:+: 0x7B#8 :: (l ++ [0x7D#8]) := ⟨[0x7B#8], [0x7D#8], by simp⟩
  obtain ⟨i1, i2⟩ := pairs_infix hp m hm
  exact ⟨(h2 m hm).1, clean_sub (i1.trans hi) ht.2, h1 m hm, clean_sub (i2.trans hi) ht.2⟩

theorem arr_good {n : Nat} {vs : List (List Byte)} {t : List Byte} (h : IsArr vs t) (hv : ∀ v ∈ vs, JVal v) (ht : Good n t) : ∃ k, n = k + 1 ∧ ∀ v ∈ vs, Good k v := by
  obtain ⟨k, rfl, h1⟩ := arr_inv h hv ht.1
  refine ⟨k, rfl, fun m hm => ?_⟩
  obtain ⟨l, hl, rfl⟩ := h
  have hp : Items vs l := hl.resolve_left (by rintro ⟨rfl, -⟩; simp at hm)
  exact ⟨h1 m hm, clean_sub ((items_infix hp m hm).trans ⟨[0x5B#8], [0x5D#8], by simp⟩) ht.2⟩

theorem good_obj {k : Nat} {ms : List (List Byte × List Byte)} (h : ∀ m ∈ ms, Str m.1 ∧ Clean m.1 ∧ Good k m.2) : Good (k + 1) (objText ms) := by
  refine ⟨obj_level (objText_obj fun m hm => ⟨(h m hm).1, k, (h m hm).2.2.1⟩) fun m hm => (h m hm).2.2.1, clean_bracket (by decide) (by decide) fun t ht => ?_⟩
  obtain ⟨m, hm, rfl⟩ := List.mem_map.1 ht
  exact clean_mid (by decide) (h m hm).2.1 (h m hm).2.2.2

theorem good_arr {k : Nat} {ts : List (List Byte)} (h : ∀ t ∈ ts, Good k t) : Good (k + 1) (bracket 0x5B#8 0x5D#8 ts) :=
  ⟨arr_level (bracket_arr ts) fun t ht => (h t ht).1, clean_bracket (by decide) (by decide) fun t ht => (h t ht).2⟩

theorem clean_quoted {s : String} (h : Plain (txt s)) : Clean (quoted s) := clean_tame (plain_fits h).2

end

end Tg.Gp
