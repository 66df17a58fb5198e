import Verif.Spec.Wkb
import Verif.Spec.Json
import Verif.Model.Geobin
/-!
Specification of GeoBIN (docs/GEOBIN.md), independent of the model's writer and parser. Of the
model it uses the objects (`Geom`) and, to say which JSON is accepted, the validator `jsonValidn` (whose
language is the subject of C16).
-/
namespace Tg

/-- What a user sees of a GeoJSON-like object: a geometry, a Feature or a FeatureCollection, with its
extra JSON. -/
inductive FV where
  | plain (v : GV) (x : Option (List Byte))
  | feat (v : GV) (x : Option (List Byte))
  | fcol (fs : List FV) (x : Option (List Byte))
deriving Repr

namespace Spec

/-- The extra JSON of an object. -/
def extraJson : Geom → Option (List Byte)
  | .gpoint _ _ _ _ x | .gline _ _ _ x | .gpoly _ _ _ x | .mpoint _ _ _ x | .mline _ _ _ x
  | .mpoly _ _ _ x | .coll _ _ _ _ x => x
  | .point .. | .line .. | .poly .. | .err .. => none

mutual
/-- What is seen of an object. A FeatureCollection is a collection with the mark IS_FEATURE_COL (which may
not be marked as a Feature or as empty at the same time). Members of other collections are seen as
plain geometries. -/
def fview : Geom → Option FV
  | .coll fl hasMulti gs cs x =>
    if fl.isFeatureCol then
      if fl.isFeature || fl.isEmpty then none
      else if hasMulti then (fviews gs).map (fun fs => .fcol fs x) else some (.fcol [] x)
    else (view (.coll fl hasMulti gs cs x)).map fun v => if fl.isFeature then .feat v x else .plain v x
  | .point fl p => (view (.point fl p)).bind (mk fl none)
  | .line fl p => (view (.line fl p)).bind (mk fl none)
  | .poly fl p => (view (.poly fl p)).bind (mk fl none)
  | .gpoint fl p z m x => (view (.gpoint fl p z m x)).bind (mk fl x)
  | .gline fl l c x => (view (.gline fl l c x)).bind (mk fl x)
  | .gpoly fl l c x => (view (.gpoly fl l c x)).bind (mk fl x)
  | .mpoint fl l c x => (view (.mpoint fl l c x)).bind (mk fl x)
  | .mline fl l c x => (view (.mline fl l c x)).bind (mk fl x)
  | .mpoly fl l c x => (view (.mpoly fl l c x)).bind (mk fl x)
  | .err _ => none
where
  /-- Objects that are not collections are never FeatureCollections. -/
  mk (fl : Flags) (x : Option (List Byte)) (v : GV) : Option FV :=
    if fl.isFeatureCol then none else some (if fl.isFeature then .feat v x else .plain v x)
/-- `fview` of every feature. -/
def fviews : List Geom → Option (List FV)
  | [] => some []
  | g :: gs =>
    match fview g, fviews gs with
    | some f, some fs => some (f :: fs)
    | _, _ => none
end

/-- The MBR section: the dimension (0, 2, 3 or 4) and two corners of that many doubles. -/
def Mbr (bs : List Byte) : Prop :=
  ∃ lo hi : List F64, lo.length = hi.length ∧ lo.length ∈ [0, 2, 3, 4] ∧
    bs = BitVec.ofNat 8 lo.length :: (lo.flatMap (f64 false) ++ hi.flatMap (f64 false))

/-- The extra JSON section: the bytes and a zero byte. -/
def xsection (x : Option (List Byte)) : List Byte := x.getD [] ++ [0#8]

/-- Extra JSON that can be stored: a non-empty valid JSON text. -/
def XOk (x : Option (List Byte)) : Prop := ∀ b, x = some b → Json.Text Json.TgStr b

mutual
/-- `GBin f bs`: the bytes `bs` are a GeoBIN encoding of `f`. -/
inductive GBin : FV → List Byte → Prop
  | point (z m p bs) : Enc (.point z m p) (1#8 :: bs) → GBin (.plain (.point z m p) none) (1#8 :: bs)
  | geom (v x mbr bs) : Mbr mbr → Enc v bs → GBin (.plain v x) (2#8 :: (mbr ++ (xsection x ++ bs)))
  | feat (v x mbr bs) : Mbr mbr → Enc v bs → GBin (.feat v x) (3#8 :: (mbr ++ (xsection x ++ bs)))
  | fcol (fs x mbr bs) : Mbr mbr → GBins fs bs →
      GBin (.fcol fs x) (4#8 :: (mbr ++ (xsection x ++ (u32 false (BitVec.ofNat 32 fs.length) ++ bs))))
/-- Encodings of the features, one after the other. -/
inductive GBins : List FV → List Byte → Prop
  | nil : GBins [] []
  | cons (f fs b bs) : GBin f b → GBins fs bs → GBins (f :: fs) (b ++ bs)
end

mutual
/-- Objects that can be stored and read back: valid geometries, storable JSON. -/
def FValid : FV → Prop
  | .plain v x => Valid v ∧ XOk x
  | .feat v x => Valid v ∧ XOk x
  | .fcol fs x => fs.length < 2^31 ∧ XOk x ∧ FValids fs
/-- All features. -/
def FValids : List FV → Prop
  | [] => True
  | f :: fs => FValid f ∧ FValids fs
end

mutual
/-- Nesting height. -/
def fheight : FV → Nat
  | .plain v _ => height v
  | .feat v _ => height v
  | .fcol fs _ => fheights fs
/-- One more than the highest, 0 without features. -/
def fheights : List FV → Nat
  | [] => 0
  | f :: fs => max (fheight f + 1) (fheights fs)
end

mutual
/-- Sizes for which the writer's `int` byte counts do not overflow. -/
def FFits : FV → Prop
  | .plain v _ => Fits v
  | .feat v _ => Fits v
  | .fcol fs _ => FFitss fs
/-- All features. -/
def FFitss : List FV → Prop
  | [] => True
  | f :: fs => FFits f ∧ FFitss fs
end

/-- No error value anywhere inside. -/
def noErr : Geom → Prop
  | .err _ => False
  | .coll _ _ gs _ _ => ∀ g ∈ gs, noErr g
  | _ => True
termination_by g => sizeOf g

end Spec
end Tg
