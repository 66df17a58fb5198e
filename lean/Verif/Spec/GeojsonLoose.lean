import Verif.Spec.Geojson
/-!
The texts that tg takes for GeoJSON. They differ from RFC 7946 in what is said about members with the same name, in the end of the name of a type, and in what is asked of
the members of a Feature.
-/
namespace Tg.Spec.Geojson
open Json

/-- `v` is the value of the first member with the name `s`. -/
def FirstMember (ms : List (List Byte × List Byte)) (s : String) (v : List Byte) : Prop :=
  ∃ a k b, ms = a ++ (k, v) :: b ∧ Named k s ∧ ∀ m ∈ a, ¬ Named m.1 s

/-- `v` is the value of the last member with the name `s`. -/
def LastMember (ms : List (List Byte × List Byte)) (s : String) (v : List Byte) : Prop :=
  ∃ a k b, ms = a ++ (k, v) :: b ∧ Named k s ∧ ∀ m ∈ b, ¬ Named m.1 s

/-- The string token `k` is the text `s`, or the text `s` and then `\u0000` and anything. -/
def NamedTo (k : List Byte) (s : String) : Prop :=
  ∃ cs, k = 0x22#8 :: (cs ++ [0x22#8]) ∧ (Spells cs (txt s) ∨ ∃ a b, cs = a ++ (txt "\\u0000" ++ b) ∧ Spells a (txt s))

/-- An object of the type `name` with the member `field`: the first `type` and the last `field` count. -/
def LooseObj (name field : String) (c t : List Byte) : Prop :=
  ∃ ms ty, IsObj ms t ∧ FirstMember ms "type" ty ∧ NamedTo ty name ∧ LastMember ms field c

variable (N : List Byte → F64 → Prop)

mutual
/-- `t` is an object that tg reads as this geometry. -/
def Loose : GV → List Byte → Prop
  | .point _ _ (some p), t => ∃ c, LooseObj "Point" "coordinates" c t ∧ IsPosn N p c
  | .point _ _ none, t => ∃ c, LooseObj "Point" "coordinates" c t ∧ IsArr [] c
  | .line _ _ ps, t => ∃ c, LooseObj "LineString" "coordinates" c t ∧ IsSeries N ps c
  | .poly _ _ rs, t => ∃ c, LooseObj "Polygon" "coordinates" c t ∧ IsRings N rs c
  | .mpoint _ _ ps, t => ∃ c, LooseObj "MultiPoint" "coordinates" c t ∧ IsSeries N ps c
  | .mline _ _ ls, t => ∃ c, LooseObj "MultiLineString" "coordinates" c t ∧ IsRings N ls c
  | .mpoly _ _ ps, t => ∃ c, LooseObj "MultiPolygon" "coordinates" c t ∧ IsPolys N ps c
  | .coll gs, t => ∃ c ts, LooseObj "GeometryCollection" "geometries" c t ∧ IsArr ts c ∧ AreLoose gs ts
/-- One text for each. -/
def AreLoose : List GV → List (List Byte) → Prop
  | [], ts => ts = []
  | v :: vs, ts => ∃ t ts', ts = t :: ts' ∧ Loose v t ∧ AreLoose vs ts'
end

/-- The first `properties` and the first `id` are what they should be. -/
def LooseMembers (ms : List (List Byte × List Byte)) : Prop :=
  (∀ v, FirstMember ms "properties" v → v = txt "null" ∨ ∃ ms', IsObj ms' v) ∧ ∀ v, FirstMember ms "id" v → Str v ∨ IsNumber v

/-- `t` is an object that tg reads as a Feature with this geometry, or with null. -/
def LooseFeature (f : Option GV) (t : List Byte) : Prop :=
  ∃ ms ty c, IsObj ms t ∧ FirstMember ms "type" ty ∧ NamedTo ty "Feature" ∧ LastMember ms "geometry" c ∧ LooseMembers ms ∧
    match f with
    | none => c = txt "null"
    | some v => Loose N v c

/-- `t` is an object that tg reads as a FeatureCollection of these Features. -/
def LooseFeatures (fs : List (Option GV)) (t : List Byte) : Prop :=
  ∃ c ts, LooseObj "FeatureCollection" "features" c t ∧ IsArr ts c ∧ List.Forall₂ (LooseFeature N) fs ts

end Tg.Spec.Geojson
