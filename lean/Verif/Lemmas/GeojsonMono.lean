import Verif.Lemmas.GeojsonWhole
import Verif.Lemmas.WktNum
/-! Numbers of GeoJSON texts. -/
set_option linter.unusedSectionVars false
namespace Tg.Gp
open Spec.Json (IsNumber)
open Spec.Geojson
open Spec (IsDecimal)
open Spec.Wkt (NumOf double)

variable {N M : List Byte → F64 → Prop}

theorem IsPosn.mono (h : ∀ t x, N t x → M t x) {p : List F64} {t : List Byte} (hp : IsPosn N p t) : IsPosn M p t := by
  obtain ⟨ts, h1, h2, h3⟩ := hp
  exact ⟨ts, h1, h2, h3.imp h⟩

theorem IsList.mono {α : Type} {I J : α → List Byte → Prop} (h : ∀ a t, I a t → J a t) {l : List α} {t : List Byte} (hl : IsList I l t) : IsList J l t := by
  obtain ⟨ts, h1, h2⟩ := hl
  exact ⟨ts, h1, h2.imp h⟩

theorem IsSeries.mono (h : ∀ t x, N t x → M t x) : ∀ (l : List (List F64)) (t : List Byte), IsSeries N l t → IsSeries M l t := fun _ _ => IsList.mono fun _ _ => IsPosn.mono h
theorem IsRings.mono (h : ∀ t x, N t x → M t x) : ∀ (l : List (List (List F64))) (t : List Byte), IsRings N l t → IsRings M l t := fun _ _ => IsList.mono (IsSeries.mono h)
theorem IsPolys.mono (h : ∀ t x, N t x → M t x) : ∀ (l : List (List (List (List F64)))) (t : List Byte), IsPolys N l t → IsPolys M l t := fun _ _ => IsList.mono (IsRings.mono h)

mutual
theorem IsGeometry.mono (h : ∀ t x, N t x → M t x) (v : GV) (t : List Byte) (hv : IsGeometry N v t) : IsGeometry M v t := by
  match v with
  | .point _ _ (some p) => rw [IsGeometry] at hv ⊢; obtain ⟨c, h1, h2⟩ := hv; exact ⟨c, h1, IsPosn.mono h h2⟩
  | .point _ _ none => rw [IsGeometry] at hv ⊢; exact hv
  | .line _ _ ps => rw [IsGeometry] at hv ⊢; obtain ⟨c, h1, h2⟩ := hv; exact ⟨c, h1, IsSeries.mono h _ _ h2⟩
  | .poly _ _ ps => rw [IsGeometry] at hv ⊢; obtain ⟨c, h1, h2⟩ := hv; exact ⟨c, h1, IsRings.mono h _ _ h2⟩
  | .mpoint _ _ ps => rw [IsGeometry] at hv ⊢; obtain ⟨c, h1, h2⟩ := hv; exact ⟨c, h1, IsSeries.mono h _ _ h2⟩
  | .mline _ _ ps => rw [IsGeometry] at hv ⊢; obtain ⟨c, h1, h2⟩ := hv; exact ⟨c, h1, IsRings.mono h _ _ h2⟩
  | .mpoly _ _ ps => rw [IsGeometry] at hv ⊢; obtain ⟨c, h1, h2⟩ := hv; exact ⟨c, h1, IsPolys.mono h _ _ h2⟩
  | .coll gs =>
    rw [IsGeometry] at hv ⊢
    obtain ⟨c, ts, h1, h2, h3⟩ := hv
    exact ⟨c, ts, h1, h2, AreGeometries.mono h gs ts h3⟩
theorem AreGeometries.mono (h : ∀ t x, N t x → M t x) (vs : List GV) (ts : List (List Byte)) (hv : AreGeometries N vs ts) : AreGeometries M vs ts := by
  match vs with
  | [] => rw [AreGeometries] at hv ⊢; exact hv
  | v :: vs =>
    rw [AreGeometries] at hv ⊢
    obtain ⟨t, ts', h1, h2, h3⟩ := hv
    exact ⟨t, ts', h1, IsGeometry.mono h v t h2, AreGeometries.mono h vs ts' h3⟩
end

/-- A `strtod` that reads a number which is all of its text. -/
def readAll (rnd : ℚ → F64) (t : List Byte) : F64 × Nat := (double rnd t (Wp.decVal t), t.length)

end Tg.Gp
