import Verif.Lemmas.WkbWrite
import Verif.Lemmas.WkbSafe
/-!
Glue between the writer, the parser and the specification of WKB.
-/
namespace Tg
open Spec

theorem lineOk_fits {z m ps} (h : lineOk z m ps) : ps.length * (8 * dims z m) < 2^31 := h.2.1
theorem polyOk_fits {z m rs} (h : polyOk z m rs) : ∀ r ∈ rs, r.length * (8 * dims z m) < 2^31 :=
  fun r hr => (h.2.2 r hr).2.1

mutual
theorem valid_fits : ∀ v, Valid v → Fits v
  | .point _ _ _, _ => by simp only [Fits]
  | .line z m ps, h => by
    simp only [Fits]
    simp only [Valid] at h
    rcases h with ⟨rfl, _⟩ | h
    · simp
    · exact lineOk_fits h
  | .poly z m rs, h => by
    simp only [Fits]
    simp only [Valid] at h
    rcases h with ⟨rfl, _⟩ | h
    · simp
    · exact polyOk_fits h
  | .mpoint _ _ _, _ => by simp only [Fits]
  | .mline z m ls, h => by
    simp only [Fits]; simp only [Valid] at h
    exact fun l hl => lineOk_fits (h.2 l hl)
  | .mpoly z m ls, h => by
    simp only [Fits]; simp only [Valid] at h
    exact fun l hl => polyOk_fits (h.2 l hl)
  | .coll gs, h => by
    simp only [Fits]; simp only [Valid] at h
    exact valids_fits gs h.2
theorem valids_fits : ∀ vs, Valids vs → Fitss vs
  | [], _ => by simp only [Fitss]
  | v :: vs, h => by
    simp only [Fitss]; simp only [Valids] at h
    exact ⟨valid_fits v h.1, valids_fits vs h.2⟩
end

theorem encAll_flatMap {α} (f : α → GV) (e : α → List Byte) (h : ∀ a, Enc (f a) (e a)) (l : List α) :
    EncAll (l.map f) (l.flatMap e) := by
  induction l with
  | nil => exact .nil
  | cons a l ih => exact .cons _ _ _ _ (h a) ih

mutual
theorem enc_encode : ∀ v, Valid v → Enc v (encode v)
  | .point z m (some p), _ => by simp only [encode]; exact .point _ _ _ _ _
  | .point z m none, h => by
    simp only [Valid] at h
    obtain ⟨rfl, rfl⟩ := h
    simp only [encode]
    refine .pointEmpty false none false false _ rfl ?_
    simp; decide
  | .line z m ps, _ => by simp only [encode]; exact .line _ _ _ _ _
  | .poly z m rs, _ => by simp only [encode]; exact .poly _ _ _ _ _
  | .mpoint z m ps, _ => by
    simp only [encode]
    exact .mpoint _ _ _ _ _ _ (encAll_flatMap _ _ (fun p => .point false none z m p) ps)
  | .mline z m ls, _ => by
    simp only [encode]
    exact .mline _ _ _ _ _ _ (encAll_flatMap _ _ (fun p => .line false none z m p) ls)
  | .mpoly z m ps, _ => by
    simp only [encode]
    exact .mpoly _ _ _ _ _ _ (encAll_flatMap _ _ (fun p => .poly false none z m p) ps)
  | .coll gs, h => by
    simp only [encode]; simp only [Valid] at h
    exact .coll _ _ _ _ _ _ (enc_encodes gs h.2)
theorem enc_encodes : ∀ vs, Valids vs → EncAll vs (encodes vs)
  | [], _ => by simp only [encodes]; exact .nil
  | v :: vs, h => by
    simp only [encodes]; simp only [Valids] at h
    exact .cons _ _ _ _ (enc_encode v h.1) (enc_encodes vs h.2)
end

/-- Parsing an encoding, whatever follows it. -/
theorem tgParseWkb_enc {v bs} (he : Enc v bs) (hv : Valid v) (hh : height v ≤ 1024) (rest) :
    tgParseWkb (bs ++ rest) = .geom (build v) := by
  unfold tgParseWkb
  rw [(parse_enc he hv (MAXDEPTH + 1) (bs ++ rest) 0 rest (by simp)).1 (by unfold MAXDEPTH; omega)]

theorem tgParseWkb_deep {v bs} (he : Enc v bs) (hv : Valid v) (hh : 1024 < height v) (rest) :
    ∃ e, tgParseWkb (bs ++ rest) = .error e := by
  unfold tgParseWkb
  obtain ⟨e, h⟩ := (parse_enc he hv (MAXDEPTH + 1) (bs ++ rest) 0 rest (by simp)).2
    (by unfold MAXDEPTH; omega)
  rw [h]
  exact ⟨_, rfl⟩

/-- What `tg_geom_wkb` leaves behind. -/
theorem tgGeomWkb_eq {g v} (hv : view g = some v) (hf : Fits v) (dst : List Byte) (n : Nat) (hn : n ≤ dst.length) :
    (tgGeomWkb g dst n).ub = false ∧ (tgGeomWkb g dst n).count = (encode v).length ∧
    (tgGeomWkb g dst n).dst = (encode v).take n ++ dst.drop (min n (encode v).length) := by
  have hok : Wr.Ok ⟨dst, n, 0, false⟩ := hn
  unfold tgGeomWkb
  rw [writeWkb_eq g v hv hf hok]
  refine ⟨Wr.bytes_ub hok _, by rw [Wr.bytes_count]; simp, ?_⟩
  rw [Wr.bytes_dst hok]
  simp

/-! Nesting of what the parser returns. -/

theorem parsePoint_nest {z m data i swap j g} (h : parsePoint z m data i swap = .ok j g) : nest g = 0 := by
  unfold parsePoint at h
  dsimp only at h
  split at h
  · cases h
  · split at h
    · cases h
    · split at h
      · cases h; rfl
      · cases h
        split <;> split <;> rfl

theorem parseLine_nest {z m data i swap j g} (h : parseLine z m data i swap = .ok j g) : nest g = 0 := by
  unfold parseLine at h
  split at h
  · cases h
  · cases h
  · cases h
    split
    · rfl
    · split <;> rfl

theorem parsePoly_nest {z m data i swap j g} (h : parsePoly z m data i swap = .ok j g) : nest g = 0 := by
  unfold parsePoly readU32 at h
  split at h
  · cases h
  · split at h
    · cases h
    · split at h <;> dsimp only at h <;> split at h
      · cases h
      · cases h
      · cases h
        split <;> rfl
      · cases h
      · cases h
      · cases h
        split <;> rfl

theorem childLoop_nest {child : Nat → R Geom} {r : Nat} (hc : ∀ i j g, child i = .ok j g → nest g < r) (want z m) (c : Nat) :
    ∀ i j gs, childLoop child want z m c i = .ok j gs → nests gs ≤ r := by
  induction c with
  | zero => intro i j gs h; simp only [childLoop] at h; cases h; simp [nests]
  | succ c ih =>
    intro i j gs h
    rw [childLoop] at h
    split at h
    · cases h
    · cases h
    · split at h
      · cases h
      · split at h
        · cases h
        · cases h
        · rename_i h1 _ _ _ _ h2
          cases h
          have := ih _ _ _ h2
          have := hc _ _ _ h1
          simp only [nests]
          omega

theorem parseMulti_nest {child : Nat → R Geom} {r : Nat} (hc : ∀ i j g, child i = .ok j g → nest g < r)
    {t want z m data i swap j g} (h : parseMulti child t want z m data i swap = .ok j g) : nest g ≤ r := by
  unfold parseMulti readU32 at h
  split at h
  · cases h
  · split at h
    · cases h
    · dsimp only at h
      split at h
      · cases h
      · cases h
      · rename_i hl
        cases h
        have := childLoop_nest hc _ _ _ _ _ _ _ hl
        unfold buildMulti
        cases t <;> simp [nest, this]

theorem parseWkb_nest (data : List Byte) (r : Nat) : ∀ i j g, parseWkb r data i = .ok j g → nest g < r := by
  induction r with
  | zero =>
    intro i j g h
    rw [parseWkb] at h
    split at h
    · cases h
    · split at h <;> cases h
  | succ r ih =>
    intro i j g h
    rw [parseWkb] at h
    have hd : ∀ ty i swap, wkbDispatch (parseWkb r data) ty data i swap = .ok j g → nest g < r + 1 := by
      intro ty i swap h
      unfold wkbDispatch at h
      split at h
      · cases h
      · rw [parsePoint_nest h]; omega
      · rw [parseLine_nest h]; omega
      · rw [parsePoly_nest h]; omega
      all_goals exact Nat.lt_succ_of_le (parseMulti_nest ih h)
    split at h
    · cases h
    · split at h
      · cases h
      · split at h
        · cases h
        · unfold parseBody readU32 at h
          split at h
          · cases h
          · split at h
            · cases h
            · dsimp only at h
              split at h
              · split at h
                · cases h
                · split at h
                  · cases h
                  · exact hd _ _ _ h
              · exact hd _ _ _ h

end Tg
