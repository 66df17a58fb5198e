import Verif.Lemmas.Number
import Verif.Model.TextWrite
import Verif.Spec.Text
/-! The text writers write the same text for every size of the buffer. -/
set_option linter.unusedSectionVars false
namespace Tg

open Spec

variable {d0 : List Byte} {n : Nat} {bs ts : List Byte} {w : Wr}

theorem eachAfter_append (sep : Byte) (a b : List (List Byte)) : eachAfter sep (a ++ b) = eachAfter sep a ++ eachAfter sep b := by
  induction a with
  | nil => rfl
  | cons t a ih => simp [eachAfter, ih]

/-- Ryu gives scientific notation for normal numbers. -/
def NumFmt.Sci (nf : NumFmt) : Prop := ∀ x, x.isNormal = true → IsSci (nf.d2s x)

/-- The text of a number. -/
def NumFmt.text (nf : NumFmt) (x : F64) : List Byte := numText nf.fixed nf.d2s x

/-- Texts in a style. -/
def Style.posnT (s : Style) (num : F64 → List Byte) (p : List F64) : List Byte :=
  if s.posn then s.lb :: (join s.sep (p.map num) ++ [s.rb]) else join s.sep (p.map num)
def Style.series (s : Style) (num : F64 → List Byte) (ps : List (List F64)) : List Byte := bracket s.lb s.rb (ps.map (s.posnT num))
def Style.nested (s : Style) (num : F64 → List Byte) (rs : List (List (List F64))) : List Byte := bracket s.lb s.rb (rs.map (s.series num))
def Style.nested2 (s : Style) (num : F64 → List Byte) (rs : List (List (List (List F64)))) : List Byte := bracket s.lb s.rb (rs.map (s.nested num))

/-- What follows in a list, at its start or after an item. -/
def joinF (first : Bool) (ts : List (List Byte)) : List Byte := if first then join 0x2C#8 ts else eachAfter 0x2C#8 ts

theorem joinF_cons (first : Bool) (t : List Byte) (ts : List (List Byte)) :
    joinF first (t :: ts) = (if first then [] else [0x2C#8]) ++ t ++ joinF false ts := by
  cases first <;> simp [joinF, join, eachAfter]

theorem joinF_nil (first : Bool) : joinF first [] = [] := by cases first <;> rfl

theorem bracket_eq (lb rb : Byte) (ts : List (List Byte)) : bracket lb rb ts = [lb] ++ joinF true ts ++ [rb] := by
  simp [bracket, joinF]

theorem Holds.comma (hn : n ≤ d0.length) (h : Holds d0 n bs w) (first : Bool) :
    Holds d0 n (bs ++ (if first then [] else [0x2C#8])) (wComma first w) := by
  cases first with
  | true => simpa [wComma] using h
  | false => simpa [wComma] using h.byte hn 0x2C#8

section
variable {nf : NumFmt} (hnf : nf.Sci) (s : Style)
include hnf

theorem Holds.num (hn : n ≤ d0.length) (h : Holds d0 n bs w) (x : F64) : Holds d0 n (bs ++ nf.text x) (nf.write x w) :=
  h.double hn nf.fixed fun hx => sci_split (hnf x hx)

theorem wNums_holds (hn : n ≤ d0.length) (xs : List F64) : ∀ {bs w}, Holds d0 n bs w →
    Holds d0 n (bs ++ join s.sep (xs.map nf.text)) (wNums s nf xs w) := by
  induction xs with
  | nil => intro bs w h; simpa [wNums, join] using h
  | cons x xs ih =>
    intro bs w h
    cases xs with
    | nil => simpa [wNums, join, eachAfter] using h.num hnf hn x
    | cons y ys =>
      have := ih ((h.num hnf hn x).byte hn s.sep)
      simpa [wNums, join, eachAfter] using this

theorem wPosn_holds (hn : n ≤ d0.length) (xs : List F64) (h : Holds d0 n bs w) :
    Holds d0 n (bs ++ s.posnT nf.text xs) (wPosn s nf xs w) := by
  unfold wPosn Style.posnT
  by_cases hp : s.posn = true
  · simp only [hp, if_true]
    have := (wNums_holds hnf s hn xs (h.byte hn s.lb)).byte hn s.rb
    simpa using this
  · simp only [hp]
    exact wNums_holds hnf s hn xs h

theorem takePad_one (cs : List F64) : takePad 1 cs = [cs.headD 0#64] := by cases cs <;> simp [takePad]
theorem takePad_two (cs : List F64) : takePad 2 cs = [cs.headD 0#64, (cs.drop 1).headD 0#64] := by
  rcases cs with _ | ⟨a, _ | ⟨b, c⟩⟩ <;> simp [takePad, List.replicate]

theorem wPts_holds (hn : n ≤ d0.length) {dims : Nat} (hd : dims = 2 ∨ dims = 3 ∨ dims = 4) (ps : List Pt) : ∀ (first : Bool) (cs : List F64) {bs w},
    Holds d0 n bs w → Holds d0 n (bs ++ joinF first ((posns (dims - 2) ps cs).map (s.posnT nf.text))) (wPts s nf dims first ps cs w) := by
  induction ps with
  | nil => intro first cs bs w h; simpa [wPts, posns, joinF_nil] using h
  | cons p ps ih =>
    intro first cs bs w h
    have hc := h.comma hn first
    rw [posns, List.map_cons, joinF_cons, wPts]
    rcases hd with rfl | rfl | rfl
    · rw [if_neg (show ¬ (2 : Nat) = 3 by decide), if_neg (show ¬ (2 : Nat) = 4 by decide)]
      have := ih false cs (wPosn_holds hnf s hn [p.x, p.y] hc)
      simpa [takePad] using this
    · rw [if_pos (show (3 : Nat) = 3 from rfl)]
      have := ih false (cs.drop 1) (wPosn_holds hnf s hn [p.x, p.y, cs.headD 0#64] hc)
      rw [takePad_one hnf]
      simpa using this
    · rw [if_neg (show ¬ (4 : Nat) = 3 by decide), if_pos (show (4 : Nat) = 4 from rfl)]
      have := ih false (cs.drop 2) (wPosn_holds hnf s hn [p.x, p.y, cs.headD 0#64, (cs.drop 1).headD 0#64] hc)
      rw [takePad_two hnf]
      simpa using this

theorem wRing_holds (hn : n ≤ d0.length) {dims : Nat} (hd : dims = 2 ∨ dims = 3 ∨ dims = 4) (ps : List Pt) (cs : List F64) (h : Holds d0 n bs w) :
    Holds d0 n (bs ++ s.series nf.text (posns (dims - 2) ps cs)) (wRing s nf dims ps cs w) := by
  have := (wPts_holds hnf s hn hd ps true cs (h.byte hn s.lb)).byte hn s.rb
  rw [Style.series, bracket_eq]
  simpa [wRing] using this

theorem wRings_holds (hn : n ≤ d0.length) {dims : Nat} (hd : dims = 2 ∨ dims = 3 ∨ dims = 4) (rs : List (List Pt)) : ∀ (first : Bool) (cs : List F64) {bs w},
    Holds d0 n bs w → Holds d0 n (bs ++ joinF first ((posnss (dims - 2) rs cs).map (s.series nf.text))) (wRings s nf dims first rs cs w) := by
  induction rs with
  | nil => intro first cs bs w h; simpa [wRings, posnss, joinF_nil] using h
  | cons r rs ih =>
    intro first cs bs w h
    have := ih false (advCoords dims r.length cs) (wRing_holds hnf s hn hd r cs (h.comma hn first))
    rw [posnss, List.map_cons, joinF_cons, wRings]
    simpa [advCoords] using this

theorem wPoly_holds (hn : n ≤ d0.length) {dims : Nat} (hd : dims = 2 ∨ dims = 3 ∨ dims = 4) (pl : Poly) (cs : List F64) (h : Holds d0 n bs w) :
    Holds d0 n (bs ++ s.nested nf.text (posnss (dims - 2) (rings pl) cs)) (wPoly s nf dims pl cs w) := by
  have := (wRings_holds hnf s hn hd (rings pl) true cs (h.byte hn s.lb)).byte hn s.rb
  rw [Style.nested, bracket_eq]
  simpa [wPoly, rings] using this

theorem wLines_holds (hn : n ≤ d0.length) {dims : Nat} (hd : dims = 2 ∨ dims = 3 ∨ dims = 4) (ls : List (List Pt)) : ∀ (first : Bool) (cs : List F64) {bs w},
    Holds d0 n bs w → Holds d0 n (bs ++ joinF first ((posnss (dims - 2) ls cs).map (s.series nf.text))) (wLines s nf dims first (ls.map some) cs w) := by
  induction ls with
  | nil => intro first cs bs w h; simpa [wLines, posnss, joinF_nil] using h
  | cons r rs ih =>
    intro first cs bs w h
    have := ih false (advCoords dims r.length cs) (wRing_holds hnf s hn hd r cs (h.comma hn first))
    rw [posnss, List.map_cons, joinF_cons, List.map_cons, wLines]
    simpa [advCoords] using this

theorem npoints_sum (p : Poly) : p.npoints = ((rings p).map List.length).sum := by simp [Poly.npoints, rings]

theorem wPolys_holds (hn : n ≤ d0.length) {dims : Nat} (hd : dims = 2 ∨ dims = 3 ∨ dims = 4) (ps : List Poly) : ∀ (first : Bool) (cs : List F64) {bs w},
    Holds d0 n bs w → Holds d0 n (bs ++ joinF first ((posnsss (dims - 2) (ps.map rings) cs).map (s.nested nf.text)))
      (wPolys s nf dims first (ps.map some) cs w) := by
  induction ps with
  | nil => intro first cs bs w h; simpa [wPolys, posnsss, joinF_nil] using h
  | cons r rs ih =>
    intro first cs bs w h
    have := ih false (advCoords dims r.npoints cs) (wPoly_holds hnf s hn hd r cs (h.comma hn first))
    rw [List.map_cons, posnsss, List.map_cons, joinF_cons, List.map_cons, wPolys, ← npoints_sum hnf]
    simpa [advCoords] using this

theorem wMPoint_holds (hn : n ≤ d0.length) {dims : Nat} (hd : dims = 2 ∨ dims = 3 ∨ dims = 4) (ps : List Pt) (cs : List F64) (h : Holds d0 n bs w) :
    Holds d0 n (bs ++ s.series nf.text (posns (dims - 2) ps cs)) (wMPoint s nf dims ps cs w) := wRing_holds hnf s hn hd ps cs h

theorem wMLine_holds (hn : n ≤ d0.length) {dims : Nat} (hd : dims = 2 ∨ dims = 3 ∨ dims = 4) (ls : List (List Pt)) (cs : List F64) (h : Holds d0 n bs w) :
    Holds d0 n (bs ++ s.nested nf.text (posnss (dims - 2) ls cs)) (wMLine s nf dims (ls.map some) cs w) := by
  have := (wLines_holds hnf s hn hd ls true cs (h.byte hn s.lb)).byte hn s.rb
  rw [Style.nested, bracket_eq]
  simpa [wMLine] using this

theorem wMPoly_holds (hn : n ≤ d0.length) {dims : Nat} (hd : dims = 2 ∨ dims = 3 ∨ dims = 4) (ps : List Poly) (cs : List F64) (h : Holds d0 n bs w) :
    Holds d0 n (bs ++ s.nested2 nf.text (posnsss (dims - 2) (ps.map rings) cs)) (wMPoly s nf dims (ps.map some) cs w) := by
  have := (wPolys_holds hnf s hn hd ps true cs (h.byte hn s.lb)).byte hn s.rb
  rw [Style.nested2, bracket_eq]
  simpa [wMPoly] using this

end

theorem fl_dims (fl : Flags) : fl.dims = 2 ∨ fl.dims = 3 ∨ fl.dims = 4 := by
  unfold Flags.dims
  cases fl.hasZ <;> cases fl.hasM <;> simp

theorem spec_dims (fl : Flags) : dims fl.hasZ fl.hasM = fl.dims := by
  unfold Flags.dims dims
  cases fl.hasZ <;> cases fl.hasM <;> simp

theorem exists_map_some {α : Type} {l : List (Option α)} (h : none ∉ l) : ∃ k : List α, l = k.map some := by
  induction l with
  | nil => exact ⟨[], rfl⟩
  | cons a l ih =>
    rw [List.mem_cons] at h
    push Not at h
    obtain ⟨k, hk⟩ := ih h.2
    cases a with
    | none => exact absurd rfl h.1
    | some a => exact ⟨a :: k, by rw [hk]; rfl⟩

theorem filterMap_id_map_some {α : Type} (k : List α) : (k.map some).filterMap id = k := by
  induction k with
  | nil => rfl
  | cons a k ih => simp

/-! ### WKT -/

/-- The head of a geometry. -/
def wktHeadT (name : String) (fl : Flags) : List Byte := Wkt.tag name fl.hasZ fl.hasM

theorem wktHead_holds (hn : n ≤ d0.length) (name : String) (fl : Flags) (h : Holds d0 n bs w) :
    Holds d0 n (bs ++ wktHeadT name fl) (wktHead name fl w) := by
  unfold wktHead wktHeadT Wkt.tag
  dsimp only
  split_ifs
  · have := (h.bytes hn (txt name)).bytes hn (txt " M")
    simpa using this
  · have := h.bytes hn (txt name)
    simpa using this

mutual
/-- The text of a geometry as stored. -/
def wktT (num : F64 → List Byte) : Geom → List Byte
  | .point _ p => txt "POINT" ++ Wkt.series num [[p.x, p.y]]
  | .line _ pts => txt "LINESTRING" ++ Wkt.series num (posns 0 pts [])
  | .poly _ pl => txt "POLYGON" ++ Wkt.nested num (posnss 0 (rings pl) [])
  | .gpoint fl p z m _ => wktHeadT "POINT" fl ++ (if fl.isEmpty then txt " EMPTY" else Wkt.series num [pointNums fl p z m])
  | .gline fl l cs _ => wktHeadT "LINESTRING" fl ++ (if fl.isEmpty then txt " EMPTY" else Wkt.series num (posns (fl.dims - 2) (l.getD []) cs))
  | .gpoly fl p cs _ => wktHeadT "POLYGON" fl ++ (if fl.isEmpty then txt " EMPTY" else Wkt.nested num (posnss (fl.dims - 2) (rings (p.getD ⟨[], []⟩)) cs))
  | .mpoint fl ps cs _ => wktHeadT "MULTIPOINT" fl ++
      (if fl.isEmpty || (ps.getD []).isEmpty then txt " EMPTY" else Wkt.series num (posns (fl.dims - 2) (ps.getD []) cs))
  | .mline fl ls cs _ => wktHeadT "MULTILINESTRING" fl ++
      (if fl.isEmpty || (ls.getD []).isEmpty then txt " EMPTY" else Wkt.nested num (posnss (fl.dims - 2) ((ls.getD []).filterMap id) cs))
  | .mpoly fl ps cs _ => wktHeadT "MULTIPOLYGON" fl ++
      (if fl.isEmpty || (ps.getD []).isEmpty then txt " EMPTY" else Wkt.nested2 num (posnsss (fl.dims - 2) (((ps.getD []).filterMap id).map rings) cs))
  | .coll fl hasMulti gs _ _ => wktHeadT "GEOMETRYCOLLECTION" fl ++
      (if fl.isEmpty || !hasMulti || gs.isEmpty then txt " EMPTY" else bracket 0x28#8 0x29#8 (wktTs num gs))
  | .err _ => txt "POINT EMPTY"
/-- The texts of the children. -/
def wktTs (num : F64 → List Byte) : List Geom → List (List Byte)
  | [] => []
  | g :: gs => wktT num g :: wktTs num gs
end

theorem wkt_posnT (num : F64 → List Byte) : Style.wkt.posnT num = Wkt.posn num := by
  funext p; simp [Style.posnT, Style.wkt, Wkt.posn]
theorem wkt_series (num : F64 → List Byte) : Style.wkt.series num = Wkt.series num := by
  funext p; rw [Style.series, wkt_posnT]; rfl
theorem wkt_nested (num : F64 → List Byte) : Style.wkt.nested num = Wkt.nested num := by
  funext p; rw [Style.nested, wkt_series]; rfl
theorem wkt_nested2 (num : F64 → List Byte) : Style.wkt.nested2 num = Wkt.nested2 num := by
  funext p; rw [Style.nested2, wkt_nested]; rfl

section
variable {nf : NumFmt} (hnf : nf.Sci)
include hnf

/-- A position in brackets. -/
theorem point_holds (hn : n ≤ d0.length) (xs : List F64) (h : Holds d0 n bs w) :
    Holds d0 n (bs ++ Wkt.series nf.text [xs]) ((wPosn .wkt nf xs (w.byte 0x28#8)).byte 0x29#8) := by
  have := (wPosn_holds hnf .wkt hn xs (h.byte hn 0x28#8)).byte hn 0x29#8
  rw [wkt_posnT] at this
  rw [Wkt.series, bracket_eq]
  simpa [joinF, join, eachAfter] using this

mutual
theorem writeWkt_holds (hn : n ≤ d0.length) : ∀ (g : Geom), NoNull g → ∀ {bs : List Byte} {w : Wr}, Holds d0 n bs w →
    Holds d0 n (bs ++ wktT nf.text g) (writeWkt nf g w)
  | .point fl p, _, bs, w, h => by
    rw [writeWkt, wktT, ← List.append_assoc]
    have e : txt "POINT(" = txt "POINT" ++ [0x28#8] := by decide
    have : w.bytes (txt "POINT(") = (w.bytes (txt "POINT")).byte 0x28#8 := by
      rw [e, Wr.bytes, List.foldl_append]; rfl
    rw [this]
    exact point_holds hnf hn _ (h.bytes hn _)
  | .line _ pts, _, bs, w, h => by
    rw [writeWkt, wktT, ← List.append_assoc, ← wkt_series]
    exact wRing_holds hnf .wkt hn (.inl rfl) pts [] (h.bytes hn _)
  | .poly _ pl, _, bs, w, h => by
    rw [writeWkt, wktT, ← List.append_assoc, ← wkt_nested]
    exact wPoly_holds hnf .wkt hn (.inl rfl) pl [] (h.bytes hn _)
  | .gpoint fl p z m _, _, bs, w, h => by
    rw [writeWkt, wktT, ← List.append_assoc]
    have hh := wktHead_holds hn "POINT" fl h
    by_cases he : fl.isEmpty = true
    · rw [if_pos he, if_pos he]; exact hh.bytes hn _
    · rw [if_neg he, if_neg he]; exact point_holds hnf hn _ hh
  | .gline fl l cs _, hg, bs, w, h => by
    have hh := wktHead_holds hn "LINESTRING" fl h
    cases l <;> rw [writeWkt, wktT, ← List.append_assoc]
    all_goals by_cases he : fl.isEmpty = true
    · rw [if_pos he, if_pos he]; exact hh.bytes hn _
    · rw [NoNull] at hg; simp [he] at hg
    · rw [if_pos he, if_pos he]; exact hh.bytes hn _
    · rw [if_neg he, if_neg he, ← wkt_series]
      exact wRing_holds hnf .wkt hn (fl_dims fl) _ cs hh
  | .gpoly fl p cs _, hg, bs, w, h => by
    have hh := wktHead_holds hn "POLYGON" fl h
    cases p <;> rw [writeWkt, wktT, ← List.append_assoc]
    all_goals by_cases he : fl.isEmpty = true
    · rw [if_pos he, if_pos he]; exact hh.bytes hn _
    · rw [NoNull] at hg; simp [he] at hg
    · rw [if_pos he, if_pos he]; exact hh.bytes hn _
    · rw [if_neg he, if_neg he, ← wkt_nested]
      exact wPoly_holds hnf .wkt hn (fl_dims fl) _ cs hh
  | .mpoint fl ps cs _, _, bs, w, h => by
    rw [writeWkt, wktT, ← List.append_assoc]
    have hh := wktHead_holds hn "MULTIPOINT" fl h
    by_cases he : (fl.isEmpty || (ps.getD []).isEmpty) = true
    · rw [if_pos he, if_pos he]; exact hh.bytes hn _
    · rw [if_neg he, if_neg he, ← wkt_series]
      exact wMPoint_holds hnf .wkt hn (fl_dims fl) _ cs hh
  | .mline fl ls cs _, hg, bs, w, h => by
    rw [writeWkt, wktT, ← List.append_assoc]
    have hh := wktHead_holds hn "MULTILINESTRING" fl h
    by_cases he : (fl.isEmpty || (ls.getD []).isEmpty) = true
    · rw [if_pos he, if_pos he]; exact hh.bytes hn _
    · rw [if_neg he, if_neg he, ← wkt_nested]
      rw [NoNull] at hg
      obtain ⟨k, hk⟩ := exists_map_some hg
      rw [hk, filterMap_id_map_some]
      exact wMLine_holds hnf .wkt hn (fl_dims fl) _ cs hh
  | .mpoly fl ps cs _, hg, bs, w, h => by
    rw [writeWkt, wktT, ← List.append_assoc]
    have hh := wktHead_holds hn "MULTIPOLYGON" fl h
    by_cases he : (fl.isEmpty || (ps.getD []).isEmpty) = true
    · rw [if_pos he, if_pos he]; exact hh.bytes hn _
    · rw [if_neg he, if_neg he, ← wkt_nested2]
      rw [NoNull] at hg
      obtain ⟨k, hk⟩ := exists_map_some hg
      rw [hk, filterMap_id_map_some]
      exact wMPoly_holds hnf .wkt hn (fl_dims fl) _ cs hh
  | .coll fl hasMulti gs _ _, hg, bs, w, h => by
    rw [writeWkt, wktT, ← List.append_assoc]
    have hh := wktHead_holds hn "GEOMETRYCOLLECTION" fl h
    by_cases he : (fl.isEmpty || !hasMulti || gs.isEmpty) = true
    · rw [if_pos he, if_pos he]; exact hh.bytes hn _
    · rw [if_neg he, if_neg he, bracket_eq]
      rw [NoNull] at hg
      have hg' : NoNulls gs := by
        rcases hg with e | e
        · exact absurd (by simp [e]) he
        · exact e
      have := (writeWkts_holds hn gs hg' true (hh.byte hn 0x28#8)).byte hn 0x29#8
      simpa using this
  | .err _, _, bs, w, h => by rw [writeWkt, wktT]; exact h.bytes hn _
theorem writeWkts_holds (hn : n ≤ d0.length) : ∀ (gs : List Geom), NoNulls gs → ∀ (first : Bool) {bs : List Byte} {w : Wr}, Holds d0 n bs w →
    Holds d0 n (bs ++ joinF first (wktTs nf.text gs)) (writeWkts nf first gs w)
  | [], _, first, bs, w, h => by simpa [writeWkts, wktTs, joinF_nil] using h
  | g :: gs, hg, first, bs, w, h => by
    rw [NoNulls] at hg
    have := writeWkts_holds hn gs hg.2 false (writeWkt_holds hn g hg.1 (h.comma hn first))
    rw [wktTs, joinF_cons, writeWkts]
    simpa using this
end
end

/-! ### The text of what the user sees -/

theorem posns_isEmpty (k : Nat) (ps : List Pt) (cs : List F64) : (posns k ps cs).isEmpty = ps.isEmpty := by cases ps <;> rfl
theorem posnss_isEmpty (k : Nat) (ps : List (List Pt)) (cs : List F64) : (posnss k ps cs).isEmpty = ps.isEmpty := by cases ps <;> rfl
theorem posnsss_isEmpty (k : Nat) (ps : List (List (List Pt))) (cs : List F64) : (posnsss k ps cs).isEmpty = ps.isEmpty := by cases ps <;> rfl

theorem mapM_id_eq {α : Type} {l : List (Option α)} {k : List α} (h : l.mapM id = some k) : l = k.map some := by
  induction l generalizing k with
  | nil => simp at h; simp [h]
  | cons a l ih =>
    rw [List.mapM_cons] at h
    cases a with
    | none => simp at h
    | some a =>
      cases hl : l.mapM id with
      | none => rw [hl] at h; simp at h
      | some k' => rw [hl] at h; simp at h; rw [← h, ih hl]; rfl

theorem pointNums_eq (fl : Flags) (p : Pt) (z m : F64) :
    pointNums fl p z m = [p.x, p.y] ++ (if fl.hasZ then [z] else []) ++ (if fl.hasM then [m] else []) := by
  unfold pointNums
  cases fl.hasZ <;> cases fl.hasM <;> rfl

mutual
theorem wktT_view (num : F64 → List Byte) : ∀ (g : Geom) (v : GV), view g = some v → Filled g → wktT num g = Wkt.text num v
  | .point fl p, v, hv, _ => by
    rw [view] at hv; split at hv <;> simp at hv; subst hv
    simp [wktT, Wkt.text, Wkt.tag]
  | .line fl pts, v, hv, hf => by
    rw [view] at hv; split at hv <;> simp at hv; subst hv
    rw [Filled] at hf
    simp [wktT, Wkt.text, Wkt.tag, Wkt.body, posns_isEmpty, hf]
  | .poly fl pl, v, hv, _ => by
    rw [view] at hv; split at hv <;> simp at hv; subst hv
    simp [wktT, Wkt.text, Wkt.tag, Wkt.body, posnss_isEmpty, rings]
  | .gpoint fl p z m _, v, hv, _ => by
    rw [view] at hv
    by_cases he : fl.isEmpty = true
    · rw [if_pos he] at hv
      split at hv <;> simp at hv
      rename_i h; subst hv
      simp at h
      simp [wktT, Wkt.text, wktHeadT, h, he]
    · rw [if_neg he] at hv; simp at hv; subst hv
      simp [wktT, Wkt.text, wktHeadT, he, pointNums_eq]
  | .gline fl l cs _, v, hv, hf => by
    rw [Filled] at hf
    by_cases he : fl.isEmpty = true
    · cases l <;> simp [view, he] at hv <;> subst hv <;> simp [wktT, Wkt.text, wktHeadT, he, Wkt.body]
    · cases l with
      | none => simp [view, he] at hv
      | some pts =>
        simp [view, he] at hv; subst hv
        have : pts ≠ [] := by rintro rfl; exact hf.elim he (by simp)
        simp [wktT, Wkt.text, wktHeadT, he, Wkt.body, posns_isEmpty, this, spec_dims]
  | .gpoly fl p cs _, v, hv, _ => by
    by_cases he : fl.isEmpty = true
    · cases p <;> simp [view, he] at hv <;> subst hv <;> simp [wktT, Wkt.text, wktHeadT, he, Wkt.body]
    · cases p with
      | none => simp [view, he] at hv
      | some pl =>
        simp [view, he] at hv; subst hv
        simp [wktT, Wkt.text, wktHeadT, he, Wkt.body, posnss_isEmpty, spec_dims, rings]
  | .mpoint fl ps cs _, v, hv, _ => by
    rw [view] at hv; simp at hv; subst hv
    by_cases he : fl.isEmpty = true
    · simp [wktT, Wkt.text, wktHeadT, he, Wkt.body]
    · simp [wktT, Wkt.text, wktHeadT, he, Wkt.body, posns_isEmpty, spec_dims]
  | .mline fl ls cs _, v, hv, _ => by
    rw [view] at hv
    by_cases he : fl.isEmpty = true
    · rw [if_pos he] at hv; simp at hv; subst hv
      simp [wktT, Wkt.text, wktHeadT, he, Wkt.body]
    · rw [if_neg he] at hv
      cases hl : (ls.getD []).mapM id with
      | none => rw [hl] at hv; simp at hv
      | some k =>
        rw [hl] at hv; simp at hv; subst hv
        have := mapM_id_eq hl
        rw [wktT, this, filterMap_id_map_some]
        simp [Wkt.text, wktHeadT, he, Wkt.body, posnss_isEmpty, spec_dims]
  | .mpoly fl ps cs _, v, hv, _ => by
    rw [view] at hv
    by_cases he : fl.isEmpty = true
    · rw [if_pos he] at hv; simp at hv; subst hv
      simp [wktT, Wkt.text, wktHeadT, he, Wkt.body]
    · rw [if_neg he] at hv
      cases hl : (ps.getD []).mapM id with
      | none => rw [hl] at hv; simp at hv
      | some k =>
        rw [hl] at hv; simp at hv; subst hv
        have := mapM_id_eq hl
        rw [wktT, this, filterMap_id_map_some]
        simp [Wkt.text, wktHeadT, he, Wkt.body, posnsss_isEmpty, spec_dims]
  | .coll fl hasMulti gs _ _, v, hv, hf => by
    rw [view] at hv
    by_cases hz : (fl.hasZ || fl.hasM) = true
    · rw [if_pos hz] at hv; simp at hv
    rw [if_neg hz] at hv
    simp only [Bool.or_eq_true, not_or, Bool.not_eq_true] at hz
    have ht : wktHeadT "GEOMETRYCOLLECTION" fl = Wkt.tag "GEOMETRYCOLLECTION" false false := by rw [wktHeadT, hz.1, hz.2]
    by_cases he : (!hasMulti || fl.isEmpty) = true
    · rw [if_pos he] at hv; simp at hv; subst hv
      rw [wktT, ht, if_pos (by revert he; cases hasMulti <;> cases fl.isEmpty <;> simp)]
      rfl
    · rw [if_neg he] at hv
      rw [Filled] at hf
      have hf' : Filleds gs := by
        rcases hf with e | e | e
        · exact absurd (by simp [e]) he
        · exact absurd (by simp [e]) he
        · exact e
      cases hg : views gs with
      | none => rw [hg] at hv; simp at hv
      | some vs =>
        rw [hg] at hv; simp at hv; subst hv
        have := wktTs_view num gs vs hg hf'
        have hgs : (wktTs num gs).isEmpty = gs.isEmpty := by cases gs <;> rfl
        have hx : (fl.isEmpty || !hasMulti || gs.isEmpty) = gs.isEmpty := by revert he; cases hasMulti <;> cases fl.isEmpty <;> simp
        rw [wktT, ht, hx, Wkt.text, Wkt.body, ← this, hgs]
  | .err _, v, hv, _ => by simp [view] at hv
theorem wktTs_view (num : F64 → List Byte) : ∀ (gs : List Geom) (vs : List GV), views gs = some vs → Filleds gs → wktTs num gs = Wkt.texts num vs
  | [], vs, hv, _ => by simp [views] at hv; subst hv; rfl
  | g :: gs, vs, hv, hf => by
    rw [views] at hv
    rw [Filleds] at hf
    cases h1 : view g with
    | none => rw [h1] at hv; simp at hv
    | some v =>
      cases h2 : views gs with
      | none => rw [h1, h2] at hv; simp at hv
      | some vs' =>
        rw [h1, h2] at hv; simp at hv; subst hv
        rw [wktTs, Wkt.texts, wktT_view num g v h1 hf.1, wktTs_view num gs vs' h2 hf.2]
end

end Tg
