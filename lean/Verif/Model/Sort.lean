/-
Model of Go's `sort.Stable` (standard library, `sort/sort.go` and
`sort/zsortinterface.go`) on slices represented as lists, and of the two sort
functions of /repo/segment.go.
-/
import Verif.Model.Token

namespace Tok

/-- Inner loop of `insertionSort`: the element `x` sinks to the left while it is
`Less` than its left neighbour.  The sorted prefix is given reversed. -/
def sinkRev {α : Type} (less : α → α → Bool) (x : α) : List α → List α
  | [] => [x]
  | p :: rest => if less x p then p :: sinkRev less x rest else x :: p :: rest

/-- `insertionSort(data, a, b)` on the block `data[a:b]`; the accumulator is the
reversed sorted prefix. -/
def insertionGo {α : Type} (less : α → α → Bool) : List α → List α → List α
  | acc, [] => acc.reverse
  | acc, x :: rest => insertionGo less (sinkRev less x acc) rest

/-- `insertionSort`. -/
def insertionSort {α : Type} (less : α → α → Bool) (l : List α) : List α := insertionGo less [] l

/-- The binary searches of `symMerge`:
`for i < j { h := (i+j)/2; if p(h) { i = h+1 } else { j = h } }`, result `i`.
The first argument bounds the number of rounds; `j - i` is always enough. -/
def bsearch (p : Nat → Bool) : Nat → Nat → Nat → Nat
  | 0, i, _ => i
  | fuel + 1, i, j =>
    if i < j then
      let h := (i + j) / 2
      if p h then bsearch p fuel (h + 1) j else bsearch p fuel i h
    else i

/-- `data.Less(i, j)` on a slice. -/
def lessAt {α : Type} (less : α → α → Bool) (l : List α) (i j : Nat) : Bool :=
  match l[i]?, l[j]? with
  | some x, some y => less x y
  | _, _ => false

/-- `symMerge(data, a, m, b)` on `data[a:b] = l` with `m` counted from `a`.  The
swaps that move one element, and `rotate`, are written as list operations: they
exchange two neighbouring blocks.  The first argument bounds the recursion depth;
`l.length` is always enough. -/
def symMerge {α : Type} (less : α → α → Bool) : Nat → Nat → List α → List α
  | 0, _, l => l
  | fuel + 1, m, l =>
    let b := l.length
    if m = 1 then
      -- insert data[0] into data[1:]
      let i := bsearch (fun h => lessAt less l h 0) b m b
      (l.drop 1).take (i - 1) ++ l.take 1 ++ l.drop i
    else if b - m = 1 then
      -- insert data[m] into data[:m]
      let i := bsearch (fun h => !lessAt less l m h) b 0 m
      l.take i ++ l.drop m ++ (l.take m).drop i
    else
      let mid := b / 2
      let n := mid + m
      let start := if m > mid then n - b else 0
      let r := if m > mid then mid else m
      let p := n - 1
      let start := bsearch (fun c => !lessAt less l (p - c) c) b start r
      let e := n - start
      let l := if start < m && m < e then
          l.take start ++ (l.take e).drop m ++ (l.take m).drop start ++ l.drop e
        else l
      let left := l.take mid
      let right := l.drop mid
      let left := if 0 < start && start < mid then symMerge less fuel start left else left
      let right := if mid < e && e < b then symMerge less fuel (e - mid) right else right
      left ++ right

/-- The first loop of `stable`: insertion sort of consecutive blocks of `k`
elements (the last one may be shorter).  The first argument bounds the number of
blocks. -/
def sortBlocks {α : Type} (less : α → α → Bool) (k : Nat) : Nat → List α → List (List α)
  | 0, l => [insertionSort less l]
  | fuel + 1, l =>
    if k ≤ l.length then insertionSort less (l.take k) :: sortBlocks less k fuel (l.drop k)
    else [insertionSort less l]

/-- One pass of the second loop of `stable`: neighbouring blocks are merged. -/
def mergePass {α : Type} (less : α → α → Bool) : List (List α) → List (List α)
  | x :: y :: rest =>
    (if x.isEmpty || y.isEmpty then x ++ y else symMerge less (x.length + y.length) x.length (x ++ y))
      :: mergePass less rest
  | rest => rest

/-- The second loop of `stable`: passes until one block is left. -/
def mergePasses {α : Type} (less : α → α → Bool) : Nat → List (List α) → List α
  | 0, bs => bs.flatten
  | fuel + 1, bs =>
    match bs with
    | [] => []
    | [x] => x
    | _ => mergePasses less fuel (mergePass less bs)

/-- `sort.Stable`.  Splitting the slice into blocks of 20 and merging neighbouring
blocks level by level is what the index arithmetic of `stable` does (an empty last
block is not merged there; merging it changes nothing). -/
def sortStable {α : Type} (less : α → α → Bool) (l : List α) : List α :=
  mergePasses less l.length (sortBlocks less 20 l.length l)

/-- segment.go:53-55, the comparison of `SortSegments`. -/
def segLess (a b : Segment) : Bool := a.tok.covers b.tok || a.tok.before b.tok

/-- segment.go:50-58 `SortSegments`. -/
def sortSegments (values : List Segment) : List Segment := sortStable segLess values

/-- The loop of segment.go:70-78, `i` is the index of the next element of `order`. -/
def orderIdx (a b : Bytes) : Int → Int → Int → List Bytes → Int × Int
  | _, ai, bi, [] => (ai, bi)
  | i, ai, bi, info :: rest =>
    if a = info then orderIdx a b (i + 1) i bi rest
    else if b = info then orderIdx a b (i + 1) ai i rest
    else if ai ≠ -1 ∧ bi ≠ -1 then (ai, bi)
    else orderIdx a b (i + 1) ai bi rest

/-- segment.go:65-81, the comparison of `SortSegmentsByOrder`. -/
def segLessBy (order : List Bytes) (a b : Segment) : Bool :=
  if a.tok ≠ b.tok then a.tok.covers b.tok || a.tok.before b.tok
  else
    let (ai, bi) := orderIdx a.info b.info 0 (-1) (-1) order
    decide (ai < bi)

/-- segment.go:62-84 `SortSegmentsByOrder`. -/
def sortSegmentsByOrder (values : List Segment) (order : List Bytes) : List Segment :=
  sortStable (segLessBy order) values

end Tok
