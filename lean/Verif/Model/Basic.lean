/-!
# Outcomes, checked accesses, loops, numbers, random numbers

Conventions shared by the whole model (see DESIGN.md §2).
-/
namespace Seldon

/-- What a C++ execution can do instead of returning a value.
* `ub`   : undefined behaviour (out-of-bounds `operator[]`, `back()`/`top()` of an empty container, `% 0`, ...)
* `exn`  : a C++ exception (`std::runtime_error`, `std::invalid_argument`, ...), with a tag
* `fuel` : the (fuelled) model of a recursion or `while` loop ran out of fuel: no verdict about the C++ run yet
Library semantics; `throw` at e.g. network.hpp:149, config_parser.cpp:34, model_factory.hpp:46. -/
inductive Fault where
  | ub
  | exn (tag : String)
  | fuel
  deriving DecidableEq, Repr

/-- Result of a C++ computation.
Used for every function of /repo that can throw or index a container, e.g. network.hpp:145-152. -/
abbrev Res (α : Type) := Except Fault α

/-- `v[i]` for reading: `std::vector::operator[]`, `std::span::operator[]`, UB when out of range.
Used e.g. at network.hpp:126, DeGroot.cpp:39-46. -/
def rd {α : Type} (l : List α) (i : Nat) : Res α :=
  match l[i]? with
  | some a => .ok a
  | none   => .error .ub

/-- `v[i] = a`, UB when out of range.
Used e.g. at connectivity.hpp:47-52, DeGroot.cpp:41-46. -/
def wr {α : Type} (l : List α) (i : Nat) (a : α) : Res (List α) :=
  if i < l.length then .ok (l.set i a) else .error .ub

/-- `v.back()` for reading, UB when empty.
Used at connectivity.hpp:90, 96, network.hpp:287. -/
def back {α : Type} (l : List α) : Res α :=
  match l.getLast? with
  | some a => .ok a
  | none   => .error .ub

/-- `for( size_t i = 0; i < n; i++ ) s = f(i, s)`: runs `f 0`, `f 1`, ..., `f (n-1)` in this order.
The loops of /repo with this shape, e.g. network_generation.hpp:33-71, DeGroot.cpp:37-48, ActivityDrivenModel.hpp:182-234. -/
def loop {σ : Type} (n : Nat) (f : Nat → σ → Res σ) (s : σ) : Res σ :=
  match n with
  | 0     => .ok s
  | n + 1 => do
    let s' ← loop n f s
    f n s'

/-- `std::max(a, b)`: `(a < b) ? b : a`.
Used at ActivityDrivenModel.hpp:164, 275, DeGroot.cpp:54. -/
def cmax {F : Type} [LT F] [DecidableLT F] (a b : F) : F := if a < b then b else a

/-- `std::abs(x)` on `double` (up to the sign of zero, which no modelled comparison can see).
Used at ActivityDrivenModel.hpp:163, DeGroot.cpp:56, DeffuantModel.cpp:24. -/
def cabs {F : Type} [Zero F] [Neg F] [LT F] [DecidableLT F] (x : F) : F := if x < 0 then -x else x

/-- `std::mt19937 gen` together with the standard distributions used by the code.  `G` is the generator state.
The C++ distributions are only known to return values in their range (`Rng.Lawful`).
simulation.hpp:35, 102; the distributions are those of math.hpp:61, 71, network_generation.hpp:22, ActivityDrivenModel.hpp:129-131. -/
structure Rng (G F : Type) where
  /-- `std::uniform_real_distribution<>(0.0, 1.0)( gen )` -/
  unit : G → F × G
  /-- `std::uniform_int_distribution<>( a, b )( gen )` -/
  int : Nat → Nat → G → Nat × G
  /-- `std::normal_distribution<>()( gen )` (its cached second value is part of `G`) -/
  normal : G → F × G

/-- The range guarantees of the C++ standard for the distributions (nothing about their law).
Relied on e.g. at math.hpp:71-99, network_generation.hpp:22-47. -/
structure Rng.Lawful {G F : Type} [Zero F] [One F] [LT F] [LE F] (r : Rng G F) : Prop where
  unit_nonneg : ∀ g, 0 ≤ (r.unit g).1
  unit_lt_one : ∀ g, (r.unit g).1 < 1
  int_ge : ∀ a b g, a ≤ b → a ≤ (r.int a b g).1
  int_le : ∀ a b g, a ≤ b → (r.int a b g).1 ≤ b

/-- Only the guarantee about integer draws (all that the sampling code relies on).
Relied on at math.hpp:61. -/
structure Rng.IntLawful {G F : Type} (r : Rng G F) : Prop where
  int_ge : ∀ a b g, a ≤ b → a ≤ (r.int a b g).1
  int_le : ∀ a b g, a ≤ b → (r.int a b g).1 ≤ b

end Seldon
