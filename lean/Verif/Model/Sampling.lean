import Verif.Model.Basic
/-!
# Model of the sampling helpers in `include/util/math.hpp`
-/
namespace Seldon
variable {G F : Type}

namespace Draw

/-- math.hpp:32-38: constructor of `SequenceGenerator`; math.hpp:50-56: the adjustment after `i++` in `operator++`. -/
def skip (ignore : Option Nat) (i : Nat) : Nat := if ignore = some i then i + 1 else i

/-- The values produced by iterating `SequenceGenerator` from `i` until it equals `last` (math.hpp:46-56); `fuel` bounds
the number of increments. -/
def sequence (ignore : Option Nat) (last : Nat) (fuel : Nat) (i : Nat) : Res (List Nat) :=
  match fuel with
  | 0 => .error .fuel
  | fuel + 1 =>
    if i = last then .ok []
    else do
      let tl ← sequence ignore last fuel (skip ignore (i + 1))
      .ok (i :: tl)

/-- `std::sample` for forward iterators (selection sampling): `xs` are the elements not looked at yet, so the draw is from
`[0, --unsampled] = [0, xs.size() - 1]`; an element is taken when the draw is below the number `k` still wanted.
Dereferencing the end iterator is undefined behaviour.
Called at math.hpp:61. -/
def select (r : Rng G F) (xs : List Nat) (k : Nat) (g : G) : Res (List Nat × G) :=
  match k, xs with
  | 0, _ => .ok ([], g)
  | _ + 1, [] => .error .ub
  | k + 1, x :: xs =>
    let (d, g) := r.int 0 xs.length g
    if d < k + 1 then do
      let (ys, g) ← select r xs k g
      .ok (x :: ys, g)
    else select r xs (k + 1) g

/-- `buffer.resize( k )` on a vector of integers (new elements are 0).
math.hpp:60. -/
def resize (buffer : List Nat) (k : Nat) : List Nat := buffer.take k ++ List.replicate (k - buffer.length) 0

/-- math.hpp:20-62 `draw_unique_k_from_n( ignore_idx, k, n, buffer, gen )`.  `std::sample` takes `min( k, available )`
elements; the rest of the resized buffer keeps its contents. -/
def drawUnique (r : Rng G F) (ignore : Option Nat) (k n : Nat) (buffer : List Nat) (g : G) : Res (List Nat × G) := do
  let buffer := resize buffer k
  let xs ← sequence ignore (skip ignore n) (n + 2) (skip ignore 0)
  let (ys, g) ← select r xs (min k xs.length) g
  .ok (ys ++ buffer.drop ys.length, g)

end Draw

/-- math.hpp:280-297 `hamming_distance( v1, v2 )`: throws when the sizes differ. -/
def hamming {T : Type} [DecidableEq T] (v1 v2 : List T) : Res Int :=
  if v1.length ≠ v2.length then .error (.exn "runtime_error")
  else loop v2.length (fun i (d : Int) => do
      let a ← rd v1 i
      let b ← rd v2 i
      if a ≠ b then .ok (d + 1) else .ok d)
    0

namespace Reservoir

/-- The floating-point operations used by `reservoir_sampling_A_ExpJ`.
math.hpp:64-111. -/
structure Ops (F : Type) where
  pow : F → F → F
  log : F → F

/-- Behaviour of `std::priority_queue`: the position of the element on top, for a queue given as the list of its elements
in insertion order.  `Valid` is all that memory safety needs; `Min` says the top has a smallest key (the comparator at
math.hpp:76 puts the smallest `second` on top); ties may be broken in any way. -/
structure Pick.Valid (pick : List (Nat × F) → Nat) : Prop where
  lt : ∀ l, l ≠ [] → pick l < l.length

/-- math.hpp:76-77: the comparator of the queue puts a smallest `second` on top. -/
structure Pick.Min [LT F] (pick : List (Nat × F) → Nat) : Prop where
  lt : ∀ l, l ≠ [] → pick l < l.length
  min : ∀ l (x : Nat × F), l[pick l]? = some x → ∀ y ∈ l, ¬ y.2 < x.2

/-- `H.top()`, undefined when empty.
math.hpp:87, 94, 99, 108. -/
def top (pick : List (Nat × F) → Nat) (H : List (Nat × F)) : Res (Nat × F) :=
  if H = [] then .error .ub else rd H (pick H)

/-- `H.pop()`, undefined when empty.
math.hpp:97, 109. -/
def pop (pick : List (Nat × F) → Nat) (H : List (Nat × F)) : Res (List (Nat × F)) :=
  if H = [] then .error .ub else .ok (H.eraseIdx (pick H))

variable [Zero F] [One F] [Sub F] [Mul F] [Add F] [Div F] [LE F] [DecidableLE F]

/-- math.hpp:79-85: the loop `while( idx < n && H.size() < k )`.  Every round pushes one item, so `H.size() = idx` and the
loop makes `min n k` rounds. -/
def fill (o : Ops F) (r : Rng G F) (weight : Nat → F) (rounds : Nat) (g : G) : Res (List (Nat × F) × G) :=
  loop rounds (fun idx s =>
      let (u, g) := r.unit s.2
      .ok (s.1 ++ [(idx, o.pow u (1 / weight idx))], g))
    ([], g)

/-- math.hpp:88-103: the body of the second loop for item `idx`; the state is `(H, X, gen)`. -/
def jumpStep (o : Ops F) (pick : List (Nat × F) → Nat) (r : Rng G F) (weight : Nat → F) (idx : Nat)
    (s : List (Nat × F) × F × G) : Res (List (Nat × F) × F × G) := do
  let (H, X, g) := s
  let w := weight idx
  let X := X - w
  if X ≤ 0 then do
    let x ← top pick H
    let t := o.pow x.2 w
    let (u, g) := r.unit g
    let v := u * (1 - t) + t
    let key := o.pow v (1 / w)
    let H ← pop pick H
    let H := H ++ [(idx, key)]
    let (u, g) := r.unit g
    let y ← top pick H
    .ok (H, o.log u / o.log y.2, g)
  else .ok (H, X, g)

/-- math.hpp:105-110: `buffer[i] = H.top().first; H.pop();` for `i < k`; `buffer` has been resized to `H.size()`. -/
def drain (pick : List (Nat × F) → Nat) (k : Nat) (H : List (Nat × F)) : Res (List Nat) := do
  let s ← loop k (fun i (s : List Nat × List (Nat × F)) => do
      let x ← top pick s.2
      let buffer ← wr s.1 i x.1
      let H ← pop pick s.2
      .ok (buffer, H))
    (List.replicate H.length 0, H)
  .ok s.1

/-- math.hpp:64-111 `reservoir_sampling_A_ExpJ( k, n, weight, buffer, mt )`.  Items that survive `buffer.resize` are all
overwritten, so the resized buffer is modelled as zeros. -/
def sample (o : Ops F) (pick : List (Nat × F) → Nat) (r : Rng G F) (k n : Nat) (weight : Nat → F)
    (buffer : List Nat) (g : G) : Res (List Nat × G) :=
  if k = 0 then .ok (buffer, g)
  else do
    let m := min n k
    let (H, g) ← fill o r weight m g
    let (u, g) := r.unit g
    let x ← top pick H
    let X := o.log u / o.log x.2
    let (H, _, g) ← loop (n - m) (fun j s => jumpStep o pick r weight (m + j) s) (H, X, g)
    let buffer ← drain pick k H
    .ok (buffer, g)

end Reservoir
end Seldon
