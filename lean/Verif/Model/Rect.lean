import Verif.Model.Geom
/-!
Bounding rectangles as the binary format sees them: bit patterns produced by the `rect` field of rings and
by `fmin0`/`fmax0`.

Both are parameters (`Platform`). `fmin0`/`fmax0` are platform dependent (tg.c:768-822: `fmin`, the `minsd`
instruction or a conditional expression; they differ on NaN and on zeros of different sign).
`ringRect` stands for `ring->rect`, which `series_new` computes from the points (tg.c:2200; see `Model/Series`).
-/
namespace Tg

/-- `struct tg_rect`, tg.h. -/
structure Rect where
  min : Pt
  max : Pt
deriving DecidableEq, Repr

/-- The platform dependent operations, see above. -/
structure Platform where
  fmin : F64 → F64 → F64
  fmax : F64 → F64 → F64
  ringRect : List Pt → Rect

/-- `(struct tg_rect){ 0 }`. -/
def Rect.zero : Rect := ⟨⟨0#64, 0#64⟩, ⟨0#64, 0#64⟩⟩

/-- `tg_point_rect`, tg.c:1057-1059. -/
def Pt.rect (p : Pt) : Rect := ⟨p, p⟩

/-- `rect_inflate` / `tg_rect_expand`, tg.c:1777-1782, 1796-1799. -/
def Rect.expand (P : Platform) (r o : Rect) : Rect :=
  ⟨⟨P.fmin r.min.x o.min.x, P.fmin r.min.y o.min.y⟩, ⟨P.fmax r.max.x o.max.x, P.fmax r.max.y o.max.y⟩⟩

/-- `multi_geom_inflate_rect`, tg.c:4596-4613, on the rectangles of the children. -/
def expandAll (P : Platform) : List Rect → Rect
  | [] => .zero
  | r :: rs => rs.foldl (Rect.expand P) r

/-- `tg_poly_rect`, tg.c:3880-3882: the rectangle of the exterior. -/
def Poly.rect (P : Platform) (pl : Poly) : Rect := P.ringRect pl.ext

mutual
/-- `tg_geom_rect`, tg.c:5175-5222. (The rectangle of a multi geometry is computed when it is made and
kept; geometries do not change afterwards.) -/
def geomRect (P : Platform) : Geom → Rect
  | .point _ p => p.rect
  | .line _ pts => P.ringRect pts
  | .poly _ pl => pl.rect P
  | .gpoint _ p _ _ _ => p.rect
  | .gline _ l _ _ => match l with | none => .zero | some pts => P.ringRect pts
  | .gpoly _ p _ _ => match p with | none => .zero | some pl => pl.rect P
  | .mpoint _ ps _ _ => match ps with | none => .zero | some ps => expandAll P (ps.map Pt.rect)
  | .mline _ ls _ _ =>
    match ls with
    | none => .zero
    | some ls => expandAll P (ls.map fun l => match l with | none => .zero | some pts => P.ringRect pts)
  | .mpoly _ ps _ _ =>
    match ps with
    | none => .zero
    | some ps => expandAll P (ps.map fun p => match p with | none => .zero | some pl => pl.rect P)
  | .coll _ hasMulti gs _ _ => if hasMulti then expandAll P (geomRects P gs) else .zero
  | .err _ => .zero
/-- `tg_geom_rect` of every child. -/
def geomRects (P : Platform) : List Geom → List Rect
  | [] => []
  | g :: gs => geomRect P g :: geomRects P gs
end

end Tg
