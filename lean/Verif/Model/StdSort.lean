import Verif.Model.Ecdf2
/-
Model of `std::sort` as `join_all_bounds` calls it (src/ecdf2.cc:53), in the implementation of libstdc++ 13
(`bits/stl_algo.h`, `bits/stl_heap.h`; the line numbers below refer to these headers): introsort with median of three,
heapsort below the depth limit, and a final insertion sort whose inner loop has no bound of its own.
The vector is a function from positions to elements together with its length `n`; every access is checked, and an access
outside `[0, n)` is the fault `outOfRange`.  The comparison is an arbitrary Boolean function.  Iterators are positions.
-/
namespace CP.Std

/-- What can go wrong. -/
inductive Fault where
  /-- access outside the vector -/
  | outOfRange
  /-- a loop that needs more steps than the model grants it -/
  | diverge
deriving DecidableEq, Repr

/-- Outcome. -/
abbrev S := Except Fault

variable {α : Type}

/-- `*(begin + i)` as a value -/
def rd (n : Nat) (a : Nat → α) (i : Nat) : S α := if i < n then .ok (a i) else .error .outOfRange

/-- `*(begin + i) = x` -/
def wr (n : Nat) (a : Nat → α) (i : Nat) (x : α) : S (Nat → α) :=
  if i < n then .ok (fun k => if k = i then x else a k) else .error .outOfRange

/-- `std::iter_swap` -/
def iterSwap (n : Nat) (a : Nat → α) (i j : Nat) : S (Nat → α) := do
  let x ← rd n a i
  let y ← rd n a j
  let a ← wr n a i y
  wr n a j x

/-- `__move_median_to_first`.  stl_algo.h:85-104 -/
def moveMedianToFirst (lt : α → α → Bool) (n : Nat) (m : Nat → α) (result a b c : Nat) : S (Nat → α) := do
  let x ← rd n m a
  let y ← rd n m b
  let z ← rd n m c
  if lt x y then
    if lt y z then iterSwap n m result b
    else if lt x z then iterSwap n m result c
    else iterSwap n m result a
  else if lt x z then iterSwap n m result a
  else if lt y z then iterSwap n m result c
  else iterSwap n m result b

/-- `while (comp(first, pivot)) ++first;`  stl_algo.h:1877-1878 -/
def scanUp (lt : α → α → Bool) (n : Nat) (a : Nat → α) (pivot : Nat) : Nat → Nat → S Nat
  | 0, _ => .error .diverge
  | fuel + 1, first => do
    let x ← rd n a first
    let p ← rd n a pivot
    if lt x p then scanUp lt n a pivot fuel (first + 1) else .ok first

/-- `while (comp(pivot, last)) --last;`  stl_algo.h:1880-1881 -/
def scanDown (lt : α → α → Bool) (n : Nat) (a : Nat → α) (pivot : Nat) : Nat → S Nat
  | 0 => do
    let x ← rd n a 0
    let p ← rd n a pivot
    -- the next access would be before the first element
    if lt p x then .error .outOfRange else .ok 0
  | last + 1 => do
    let x ← rd n a (last + 1)
    let p ← rd n a pivot
    if lt p x then scanDown lt n a pivot last else .ok (last + 1)

/-- `__unguarded_partition`.  stl_algo.h:1868-1887 -/
def unguardedPartition (lt : α → α → Bool) (n : Nat) : Nat → (Nat → α) → Nat → Nat → Nat → S ((Nat → α) × Nat)
  | 0, _, _, _, _ => .error .diverge
  | fuel + 1, a, first, last, pivot => do
    let first ← scanUp lt n a pivot (n + 1) first
    if last = 0 then .error .outOfRange
    else do
      let last ← scanDown lt n a pivot (last - 1)
      if first < last then do
        let a ← iterSwap n a first last
        unguardedPartition lt n fuel a (first + 1) last pivot
      else .ok (a, first)

/-- `__unguarded_partition_pivot`.  stl_algo.h:1890-1900 -/
def unguardedPartitionPivot (lt : α → α → Bool) (n : Nat) (a : Nat → α) (first last : Nat) : S ((Nat → α) × Nat) := do
  let mid := first + (last - first) / 2
  let a ← moveMedianToFirst lt n a first (first + 1) mid (last - 1)
  unguardedPartition lt n (n + 1) a (first + 1) last first

/-- `__push_heap`; the fuel is one more than the index of the hole.  stl_heap.h:131-147 -/
def pushHeap (lt : α → α → Bool) (n : Nat) (first top : Nat) (value : α) : Nat → (Nat → α) → Nat → S (Nat → α)
  | 0, _, _ => .error .diverge
  | fuel + 1, a, hole =>
    let parent := (hole - 1) / 2
    if top < hole then do
      let x ← rd n a (first + parent)
      if lt x value then do
        let a ← wr n a (first + hole) x
        pushHeap lt n first top value fuel a parent
      else wr n a (first + hole) value
    else wr n a (first + hole) value

/-- The loop of `__adjust_heap` (at its head `__secondChild == __holeIndex`).  stl_heap.h:229-237 -/
def siftDown (lt : α → α → Bool) (n : Nat) (first len : Nat) : Nat → (Nat → α) → Nat → S ((Nat → α) × Nat)
  | 0, _, _ => .error .diverge
  | fuel + 1, a, hole =>
    if hole < (len - 1) / 2 then do
      let second := 2 * (hole + 1)
      let x ← rd n a (first + second)
      let y ← rd n a (first + (second - 1))
      let second := if lt x y then second - 1 else second
      let z ← rd n a (first + second)
      let a ← wr n a (first + hole) z
      siftDown lt n first len fuel a second
    else .ok (a, hole)

/-- `__adjust_heap`.  stl_heap.h:221-250 -/
def adjustHeap (lt : α → α → Bool) (n : Nat) (a : Nat → α) (first hole len : Nat) (value : α) : S (Nat → α) := do
  let top := hole
  let (a, hole) ← siftDown lt n first len (len + 1) a hole
  if len % 2 = 0 ∧ hole = (len - 2) / 2 then do
    let second := 2 * (hole + 1)
    let x ← rd n a (first + (second - 1))
    let a ← wr n a (first + hole) x
    let hole := second - 1
    pushHeap lt n first top value (hole + 1) a hole
  else pushHeap lt n first top value (hole + 1) a hole

/-- `__pop_heap`.  stl_heap.h:252-267 -/
def popHeap (lt : α → α → Bool) (n : Nat) (a : Nat → α) (first last result : Nat) : S (Nat → α) := do
  let value ← rd n a result
  let x ← rd n a first
  let a ← wr n a result x
  adjustHeap lt n a first 0 (last - first) value

/-- The loop of `__make_heap`, from `parent` down to 0.  stl_heap.h:353-362 -/
def makeHeapLoop (lt : α → α → Bool) (n : Nat) (first len : Nat) : Nat → (Nat → α) → S (Nat → α)
  | 0, a => do
    let value ← rd n a (first + 0)
    adjustHeap lt n a first 0 len value
  | parent + 1, a => do
    let value ← rd n a (first + (parent + 1))
    let a ← adjustHeap lt n a first (parent + 1) len value
    makeHeapLoop lt n first len parent a

/-- `__make_heap`.  stl_heap.h:337-363 -/
def makeHeap (lt : α → α → Bool) (n : Nat) (a : Nat → α) (first last : Nat) : S (Nat → α) :=
  if last - first < 2 then .ok a
  else makeHeapLoop lt n first (last - first) ((last - first - 2) / 2) a

/-- `__sort_heap`; the first argument is `last - first`.  stl_heap.h:416-427 -/
def sortHeap (lt : α → α → Bool) (n : Nat) (first : Nat) : Nat → (Nat → α) → S (Nat → α)
  | 0, a => .ok a
  | len + 1, a =>
    if 1 < len + 1 then do
      let a ← popHeap lt n a first (first + len) (first + len)
      sortHeap lt n first len a
    else .ok a

/-- `__partial_sort(first, last, last)`: `__heap_select` has nothing to select.  stl_algo.h:1631-1639, 1902-1912 -/
def partialSort (lt : α → α → Bool) (n : Nat) (a : Nat → α) (first last : Nat) : S (Nat → α) := do
  let a ← makeHeap lt n a first last
  sortHeap lt n first (last - first) a

/-- `__introsort_loop`; the iteration of the `while` loop is a second recursive call.  stl_algo.h:1915-1935 -/
def introsortLoop (lt : α → α → Bool) (n : Nat) : Nat → Nat → (Nat → α) → Nat → Nat → S (Nat → α)
  | 0, _, _, _, _ => .error .diverge
  | fuel + 1, depth, a, first, last =>
    if 16 < last - first then
      if depth = 0 then partialSort lt n a first last
      else do
        let (a, cut) ← unguardedPartitionPivot lt n a first last
        let a ← introsortLoop lt n fuel (depth - 1) a cut last
        introsortLoop lt n fuel (depth - 1) a first cut
    else .ok a

/-- The loop of `__unguarded_linear_insert`: `last` is the hole.  stl_algo.h:1797-1805 -/
def linearInsert (lt : α → α → Bool) (n : Nat) (val : α) : Nat → (Nat → α) → S (Nat → α)
  | 0, _ => .error .outOfRange
  | last + 1, a => do
    let x ← rd n a last
    if lt val x then do
      let a ← wr n a (last + 1) x
      linearInsert lt n val last a
    else wr n a (last + 1) val

/-- `__unguarded_linear_insert`.  stl_algo.h:1791-1806 -/
def unguardedLinearInsert (lt : α → α → Bool) (n : Nat) (a : Nat → α) (last : Nat) : S (Nat → α) := do
  let val ← rd n a last
  linearInsert lt n val last a

/-- `std::move_backward(first, last, last + 1)`: `k` elements end at `last`. -/
def moveBackward (n : Nat) : Nat → (Nat → α) → Nat → S (Nat → α)
  | 0, a, _ => .ok a
  | k + 1, a, last => do
    let x ← rd n a (last - 1)
    let a ← wr n a last x
    moveBackward n k a (last - 1)

/-- The loop of `__insertion_sort`: `k` more elements, the next one is `i`.  stl_algo.h:1817-1829 -/
def insertionLoop (lt : α → α → Bool) (n : Nat) (first : Nat) : Nat → (Nat → α) → Nat → S (Nat → α)
  | 0, a, _ => .ok a
  | k + 1, a, i => do
    let x ← rd n a i
    let y ← rd n a first
    if lt x y then do
      let val ← rd n a i
      let a ← moveBackward n (i - first) a i
      let a ← wr n a first val
      insertionLoop lt n first k a (i + 1)
    else do
      let a ← unguardedLinearInsert lt n a i
      insertionLoop lt n first k a (i + 1)

/-- `__insertion_sort`.  stl_algo.h:1811-1830 -/
def insertionSort (lt : α → α → Bool) (n : Nat) (a : Nat → α) (first last : Nat) : S (Nat → α) :=
  if first = last then .ok a else insertionLoop lt n first (last - first - 1) a (first + 1)

/-- `__unguarded_insertion_sort`: `k` elements from `i` on.  stl_algo.h:1833-1842 -/
def unguardedInsertionSort (lt : α → α → Bool) (n : Nat) : Nat → (Nat → α) → Nat → S (Nat → α)
  | 0, a, _ => .ok a
  | k + 1, a, i => do
    let a ← unguardedLinearInsert lt n a i
    unguardedInsertionSort lt n k a (i + 1)

/-- `__final_insertion_sort(0, n)`.  stl_algo.h:1851-1865 -/
def finalInsertionSort (lt : α → α → Bool) (n : Nat) (a : Nat → α) : S (Nat → α) :=
  if 16 < n then do
    let a ← insertionSort lt n a 0 16
    unguardedInsertionSort lt n (n - 16) a 16
  else insertionSort lt n a 0 n

/-- `std::sort` of a whole vector.  `std::__lg` is the binary logarithm, rounded down.  stl_algo.h:1939-1952; called in
src/ecdf2.cc:53 -/
def sort (lt : α → α → Bool) (l : List α) : S (List α) :=
  match l with
  | [] => .ok []
  | d :: _ => do
    let n := l.length
    let a : Nat → α := fun i => l.getD i d
    let a ← introsortLoop lt n (n + 1) (2 * Nat.log2 n) a 0 n
    let a ← finalInsertionSort lt n a
    .ok ((List.range n).map a)

/-- `operator<` of bounds.  src/ecdf2.cc:29-32 -/
def boundLt {F : Type} [FOps F] (x y : Bound F) : Bool := FOps.lt x.location y.location

/-- The sort in `join_all_bounds`.  (The faults do not occur: C87.)  src/ecdf2.cc:53 -/
def sortBounds {F : Type} [FOps F] (l : List (Bound F)) : List (Bound F) :=
  match sort boundLt l with
  | .ok r => r
  | .error _ => []

end CP.Std
