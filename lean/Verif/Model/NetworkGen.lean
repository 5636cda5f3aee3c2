import Verif.Model.Network
import Verif.Model.Sampling
/-!
# Model of `include/network_generation.hpp` (except the file reader, which is in `Model/NetworkIO`)
-/
namespace Seldon.NetworkGen
open Seldon
variable {A G F : Type}

/-- Use a mutator in a sequence of statements: its exception or undefined behaviour aborts the sequence.
E.g. the statements of network_generation.hpp:33-71. -/
def _root_.Seldon.Network.Effect.run {A W : Type} (e : Network.Effect A W) : Res (Network A W) :=
  match e.2 with
  | .ok _ => .ok e.1
  | .error x => .error x

/-- network_generation.hpp:46-50 and 132-137: draw `n` weights, accumulating their sum in `acc`. -/
def drawWeights [Add F] (r : Rng G F) (n : Nat) (acc : F) (g : G) : List F × F × G :=
  match n with
  | 0 => ([], acc, g)
  | n + 1 =>
    let (u, g) := r.unit g
    let (ws, acc, g) := drawWeights r n (acc + u) g
    (u :: ws, acc, g)

/-- network_generation.hpp:33-68: one round of the agent loop of `generate_n_connections`. -/
def connectionRow [Zero F] [Add F] [Div F] (r : Rng G F) (n k : Nat) (self : Bool) (i : Nat) (g : G) :
    Res (List Nat × List F × G) := do
  let (nbrs, g) ← Draw.drawUnique r (some i) k n [] g
  let (ws, norm, g) := drawWeights r nbrs.length 0 g
  if self then
    let (u, g) := r.unit g
    .ok (nbrs ++ [i], (ws ++ [u]).map (· / (norm + u)), g)
  else
    .ok (nbrs, ws.map (· / norm), g)

/-- network_generation.hpp:14-74 `generate_n_connections( n_agents, n_connections, self_interaction, gen )`. -/
def nConnections [Inhabited A] [Zero F] [Add F] [Div F] (r : Rng G F) (n k : Nat) (self : Bool) (g : G) :
    Res (Network A F × G) := do
  let s ← loop n (fun i (s : List (List Nat) × List (List F) × G) => do
      let (row, ws, g) ← connectionRow r n k self i s.2.2
      .ok (s.1 ++ [row], s.2.1 ++ [ws], g))
    ([], [], g)
  .ok (Network.ofLists s.1 s.2.1 .incoming, s.2.2)

/-- network_generation.hpp:88-94 and 122-126: the buffer `0, 1, ..., n-1`, written entry by entry. -/
def iotaBuffer (n : Nat) : Res (List Nat) :=
  loop n (fun i b => wr b i i) (List.replicate n 0)

/-- network_generation.hpp:77-107 `generate_fully_connected( n_agents, weight )`. -/
def fullyConnected [Inhabited A] (n : Nat) (w : F) : Res (Network A F) := do
  let buffer ← iotaBuffer n
  let s ← loop n (fun _ (s : List (List Nat) × List (List F)) =>
      .ok (s.1 ++ [buffer], s.2 ++ [List.replicate n w])) ([], [])
  .ok (Network.ofLists s.1 s.2 .incoming)

/-- network_generation.hpp:109-158 `generate_fully_connected( n_agents, gen )`. -/
def fullyConnectedRandom [Inhabited A] [Zero F] [Add F] [Div F] (r : Rng G F) (n : Nat) (g : G) :
    Res (Network A F × G) := do
  let buffer ← iotaBuffer n
  let s ← loop n (fun _ (s : List (List Nat) × List (List F) × G) =>
      let (ws, norm, g) := drawWeights r n 0 s.2.2
      .ok (s.1 ++ [buffer], s.2.1 ++ [ws.map (· / norm)], g)) ([], [], g)
  .ok (Network.ofLists s.1 s.2.1 .incoming, s.2.2)

/-- network_generation.hpp:253-267 `wrap_edge_index`.  `int` overflow is not modelled (edge lengths below 2^31). -/
def wrap (L : Nat) (k : Int) : Int :=
  if k ≥ (L : Int) then k - L else if k < 0 then L + k else k

/-- network_generation.hpp:269-273 `linear_index`. -/
def linear (L : Nat) (i j : Int) : Nat := (wrap L i + L * wrap L j).toNat

/-- network_generation.hpp:243-296 `generate_square_lattice( n_edge, weight )`. -/
def lattice [Inhabited A] (L : Nat) (w : F) : Res (Network A F) :=
  loop L (fun i N =>
      loop L (fun j (N : Network A F) =>
          (N.setNeighboursConst (linear L i j)
            [linear L ((i : Int) - 1) j, linear L ((i : Int) + 1) j, linear L i ((j : Int) - 1), linear L i ((j : Int) + 1)]
            w).run) N)
    (Network.ofSize (L * L))

end Seldon.NetworkGen
