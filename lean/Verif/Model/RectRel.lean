import Verif.Model.Predicates
/-! Rectangles: their points and segments, the search over them, and their relations with points, segments, lines and polygons. -/
namespace Tg.S

/-- `tg_rect_point_at`, tg.c:1332-1347: the first and the last point are the same; other indexes give the origin. -/
def rectPointAt {α : Type*} [Zero α] (r : Rect α) (i : Int) : Pt α :=
  if i = 0 then r.lo else if i = 1 then ⟨r.hi.x, r.lo.y⟩ else if i = 2 then r.hi else if i = 3 then ⟨r.lo.x, r.hi.y⟩ else if i = 4 then r.lo else ⟨0, 0⟩

/-- `tg_rect_segment_at`, tg.c:1350-1363. -/
def rectSegAt {α : Type*} [Zero α] (r : Rect α) (i : Int) : Seg α :=
  if i = 0 then ⟨r.lo, ⟨r.hi.x, r.lo.y⟩⟩
  else if i = 1 then ⟨⟨r.hi.x, r.lo.y⟩, r.hi⟩
  else if i = 2 then ⟨r.hi, ⟨r.lo.x, r.hi.y⟩⟩
  else if i = 3 then ⟨⟨r.lo.x, r.hi.y⟩, r.lo⟩
  else ⟨⟨0, 0⟩, ⟨0, 0⟩⟩

variable {α β : Type*} [LinearOrder α] [LinearOrder β]

/-- The loop of `tg_rect_search` from index `i`, tg.c:1843-1848. -/
def rectSearchFrom [Zero α] {σ : Type*} (r target : Rect α) (iter : Iter α σ) : List Nat → σ → σ
  | [], st => st
  | i :: is, st =>
    if (rectSegAt r i).rect.intersects target then
      if (iter (rectSegAt r i) i st).2 then rectSearchFrom r target iter is (iter (rectSegAt r i) i st).1 else (iter (rectSegAt r i) i st).1
    else rectSearchFrom r target iter is st

/-- `tg_rect_search`, tg.c:1838-1849; `tg_rect_num_segments` is 4, tg.c:1326-1329. -/
def rectSearch [Zero α] {σ : Type*} (r target : Rect α) (iter : Iter α σ) (st : σ) : σ := rectSearchFrom r target iter (List.range 4) st

/-- `tg_segment_covers_rect`, tg.c:1422-1425. -/
def segCoversRect (A : Arith α) (s : Seg α) (r : Rect α) : Bool := segCoversPt A s r.lo && segCoversPt A s r.hi

/-- `tg_rect_covers_line`, tg.c:1852-1855. -/
def rectCoversLine (r : Rect α) (l : Ring α β) : Bool := !ringEmpty l && r.covers l.rect

/-- `tg_rect_covers_poly`, tg.c:3266-3269. -/
def rectCoversPoly (r : Rect α) (q : PolyS α β) : Bool := !polyEmpty q && r.covers (polyRect q)

/-- The ring that `rect_to_ring` fills, with its flags: `convex` is set, `clockwise` is not, tg.c:1811-1825. -/
def rectFRing (r : Rect α) : FRing α β := ⟨rectToRing r, true, false⟩

variable (P : Par α β)

/-- `tg_rect_intersects_line` and `tg_line_intersects_rect`, tg.c:3252-3256, 3457-3459. -/
def rectXLine (r : Rect α) (l : Ring α β) : Option Bool := ringXLine P.f P.A (rectToRing r) l true

/-- `tg_poly_intersects_rect` and `tg_rect_intersects_poly`, tg.c:3948-3953, 3260-3262. -/
def polyXRect (q : PolyS α β) (r : Rect α) : Option Bool := polyXPoly P q (.ring (rectFRing r))

/-- `tg_poly_covers_rect`, tg.c:3939-3944. -/
def polyCoversRect (q : PolyS α β) (r : Rect α) : Option Bool := polyCoversPoly P q (.ring (rectFRing r))

/-- `tg_line_covers_rect`, tg.c:3447-3453: here the ring is put into a polygon without holes. -/
def lineCoversRect (l : Ring α β) (r : Rect α) : Option Bool := lineCoversPoly P l (.poly (rectFRing r) [])

end Tg.S
