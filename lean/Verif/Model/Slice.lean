/-
Slices of segments with their backing arrays, and the basket on them.

Everywhere else the segments of a basket are a list (Model/Scanner).  Here tracker.go:31-62 is transcribed with Go's slices: `append`
writes into the backing array as long as there is room, `s[:i]` keeps the array, and a slice that was given away looks at the same array.
All slices begin at index 0 of their array, since `Basket` only makes such slices.
-/
import Verif.Model.Scanner
import Verif.Model.Sort

namespace Tok

/-- The backing arrays made so far; an array is known by its index. -/
abbrev Arrays := List (List Segment)

/-- A `[]Segment`: array, length and capacity. -/
structure Slice where
  arr : Nat
  len : Nat
  cap : Nat
  deriving Repr, DecidableEq

/-- The nil slice and `[]Segment{}`: no room, so the array does not matter. -/
def Slice.none : Slice := ⟨0, 0, 0⟩

/-- The elements of a backing array. -/
def Arrays.at (m : Arrays) (a : Nat) : List Segment := (m[a]?).getD []

/-- The elements of a slice. -/
def Slice.view (m : Arrays) (s : Slice) : List Segment := (m.at s.arr).take s.len

/-- The zero `Segment`. -/
def Segment.zero : Segment := ⟨[], ⟨0, 0⟩⟩

/-- `append(s, seg)`: in place, or into a new array whose capacity the run time chooses. -/
def Slice.append (rt : Rt) (m : Arrays) (s : Slice) (seg : Segment) : Slice × Arrays :=
  if s.len < s.cap then (⟨s.arr, s.len + 1, s.cap⟩, m.modify s.arr (·.set s.len seg))
  else (⟨m.length, s.len + 1, rt.growCap s.cap⟩,
    m ++ [s.view m ++ [seg] ++ List.replicate (rt.growCap s.cap - (s.len + 1)) Segment.zero])

/-- `s[i] = seg` for an index of the slice. -/
def Slice.set (m : Arrays) (s : Slice) (i : Nat) (seg : Segment) : Arrays :=
  if i < s.len then m.modify s.arr (·.set i seg) else m

/-- segment.go:50-58 `SortSegments`, in the array of the slice. -/
def Slice.sort (m : Arrays) (s : Slice) : Arrays :=
  m.modify s.arr (fun l => sortSegments (l.take s.len) ++ l.drop s.len)

/-- The loop of tracker.go:41-47: the `i` of the slice expression, if it is reached. -/
def cutAt (mark : Int) (segs : List Segment) : Nat → Option Nat
  | 0 => none
  | i + 1 => match segs[i]? with
    | some seg => if seg.tok.to ≤ mark then some (i + 1) else cutAt mark segs i
    | none => none

/-- A basket, the arrays, and the slices the client got from `Picked`. -/
structure Shop where
  arrays : Arrays
  basket : Slice
  got : List Slice
  deriving Repr, DecidableEq

/-- tracker.go:13-17 `NewBasket`: a zero `Basket`. -/
def Shop.new : Shop := ⟨[], Slice.none, []⟩

/-- What happens to a basket and to the slices taken from it. -/
inductive ShopOp
  /-- tracker.go:36-38 `Add`. -/
  | add (seg : Segment)
  /-- tracker.go:40-49 `Update`. -/
  | update (m : Int)
  /-- tracker.go:52-54 `Picked`: the client gets one more slice. -/
  | picked
  /-- `p[i] = seg` for the `k`-th slice of the client. -/
  | write (k i : Nat) (seg : Segment)
  /-- `p = append(p, seg)` for the `k`-th slice of the client. -/
  | extend (k : Nat) (seg : Segment)
  /-- `SortSegments(p)` for the `k`-th slice of the client. -/
  | sort (k : Nat)
  deriving Repr, DecidableEq

/-- One operation. -/
def Shop.step (rt : Rt) (w : Shop) : ShopOp → Shop
  | .add seg =>
    let (b, m) := w.basket.append rt w.arrays seg
    ⟨m, b, w.got⟩
  | .update mark =>
    match cutAt mark (w.basket.view w.arrays) w.basket.len with
    | some i => { w with basket := { w.basket with len := i } }
    | none => { w with basket := Slice.none }
  | .picked => { w with got := w.got ++ [w.basket] }
  | .write k i seg => match w.got[k]? with
    | some p => { w with arrays := p.set w.arrays i seg }
    | none => w
  | .extend k seg => match w.got[k]? with
    | some p =>
      let (p', m) := p.append rt w.arrays seg
      ⟨m, w.basket, w.got.set k p'⟩
    | none => w
  | .sort k => match w.got[k]? with
    | some p => { w with arrays := p.sort w.arrays }
    | none => w

/-- The operations one after the other. -/
def Shop.run (rt : Rt) (w : Shop) (ops : List ShopOp) : Shop := ops.foldl (Shop.step rt) w

/-- The segments in the basket. -/
def Shop.held (w : Shop) : List Segment := w.basket.view w.arrays

/-- The segments the client sees in their `k`-th slice. -/
def Shop.seen (w : Shop) (k : Nat) : List Segment := ((w.got[k]?).getD Slice.none).view w.arrays

/-- tracker.go:56-62 `Basket.String`. -/
def Shop.string (w : Shop) : Bytes := join b!";" (w.held.map Segment.string)

end Tok
