import Verif.Model.R1csPack

/-!
# Routing networks (r1cs)

`components/routing/r1cs/benes.hpp` and `components/routing/r1cs/as_waksman.hpp`. The topology (`generate_benes_topology`, `generate_as_waksman_topology`) and
the routing (`get_benes_routing`, `get_as_waksman_routing`) come from crypto3 and are parameters: `st c i` and `cr c i` are `neighbors[c][i].first` and
`.second`, `r c i` is `routing[c][i]`.
-/

namespace Verif
namespace R1cs
namespace Routing
variable {F : Type*} [Field F]

/-- `benes_routing` (benes.hpp:44-133): `n` is `num_packets`, `cols` is `num_columns`, `w` is `packet_size`, `cap` is `FieldType::capacity()`, `base` is
`next_free_var` at construction. -/
structure Benes where
  n : ℕ
  cols : ℕ
  w : ℕ
  cap : ℕ
  lines : ℕ
  base : ℕ
  inB : ℕ → List ℕ
  outB : ℕ → List ℕ
  st : ℕ → ℕ → ℕ
  cr : ℕ → ℕ → ℕ

namespace Benes
variable (k : Benes)

/-- `num_subpackets` (benes.hpp:91). -/
def sub : ℕ := (k.w + k.cap - 1) / k.cap
/-- `routed_packets[c][i][j]` (benes.hpp:98-104). -/
def pk (c i j : ℕ) : ℕ := k.base + ((c * k.n + i) * k.sub + j)
/-- `benes_switch_bits[c][i]` (benes.hpp:127-132). -/
def sw (c i : ℕ) : ℕ := k.base + (k.cols + 1) * k.n * k.sub + (c * k.n + i)

/-- Packing and unpacking of packet `i` (benes.hpp:137-148). -/
def packs (i : ℕ) : List (Constraint F) :=
  multiGates ((k.inB i).map Lc.var) (fun j => Lc.var (k.pk 0 i j)) k.cap false ++
    if i < k.lines then multiGates ((k.outB i).map Lc.var) (fun j => Lc.var (k.pk k.cols i j)) k.cap true
    else (List.range k.sub).map fun j => ⟨Lc.const 1, Lc.var (k.pk 0 i j), Lc.var (k.pk k.cols i j)⟩

/-- The constraints of packet `i` in column `c` (benes.hpp:152-186). -/
def edge (c i : ℕ) : List (Constraint F) :=
  if k.sub = 1 then
    [⟨(Lc.var (k.pk c i 0)).sub (Lc.var (k.pk (c + 1) (k.st c i) 0)), (Lc.var (k.pk c i 0)).sub (Lc.var (k.pk (c + 1) (k.cr c i) 0)), Lc.const 0⟩]
  else boolean (Lc.var (k.sw c i)) :: (List.range k.sub).map fun j =>
    ⟨Lc.var (k.sw c i), (Lc.var (k.pk (c + 1) (k.cr c i) j)).sub (Lc.var (k.pk (c + 1) (k.st c i) j)),
      (Lc.var (k.pk c i j)).sub (Lc.var (k.pk (c + 1) (k.st c i) j))⟩

/-- `generate_gates` (benes.hpp:135-188). -/
def gates : List (Constraint F) :=
  (List.range k.n).flatMap k.packs ++ (List.range k.cols).flatMap fun c => (List.range k.n).flatMap fun i => k.edge c i

end Benes

/-- Assignments in program order; the value may depend on what was assigned before. -/
def run (l : List (ℕ × (Asg F → F))) (s : Asg F) : Asg F := l.foldl (fun s w => s.set w.1 (w.2 s)) s

/-- `multipacking_component::generate_assignments_from_packed` (`detail/r1cs/packing.hpp:142-146`): the loop. -/
def multiFromPacked {p : ℕ} [Fact p.Prime] (bits : List ℕ) (packed : ℕ → ℕ) (c : ℕ) (s : Asg (ZMod p)) : ℕ → Asg (ZMod p)
  | 0 => s
  | m + 1 => packAssign (chunk bits c m) (val (multiFromPacked bits packed c s m) (packed m)) (multiFromPacked bits packed c s m)

namespace Benes
variable (k : Benes)

/-- The loop that packs the inputs (benes.hpp:191-194). -/
def packIn (s : Asg F) : ℕ → Asg F
  | 0 => s
  | m + 1 => multiFromBits ((k.inB m).map Lc.var) (k.pk 0 m) k.cap (packIn s m) (numChunks (k.inB m).length k.cap)

/-- `routing[c][i] ? cross_edge : straight_edge`. -/
def dest (r : ℕ → ℕ → Bool) (c i : ℕ) : ℕ := if r c i then k.cr c i else k.st c i

/-- The body of the routing loop (benes.hpp:201-215). -/
def colWrites (r : ℕ → ℕ → Bool) (c i : ℕ) : List (ℕ × (Asg F → F)) :=
  (if 1 < k.sub then [(k.sw c i, fun _ => if r c i then 1 else 0)] else []) ++
    (List.range k.sub).map fun j => (k.pk (c + 1) (k.dest r c i) j, fun s => val s (k.pk c i j))

/-- The routing loop (benes.hpp:199-217). -/
def routeAll (r : ℕ → ℕ → Bool) (s : Asg F) : ℕ → Asg F
  | 0 => s
  | c + 1 => run ((List.range k.n).flatMap (k.colWrites r c)) (routeAll r s c)

/-- The loop that unpacks the outputs (benes.hpp:220-222). -/
def unpack {p : ℕ} [Fact p.Prime] (s : Asg (ZMod p)) : ℕ → Asg (ZMod p)
  | 0 => s
  | m + 1 => multiFromPacked (k.outB m) (k.pk k.cols m) k.cap (unpack s m) (numChunks (k.outB m).length k.cap)

/-- `generate_assignments` (benes.hpp:190-223). -/
def assign {p : ℕ} [Fact p.Prime] (r : ℕ → ℕ → Bool) (s : Asg (ZMod p)) : Asg (ZMod p) :=
  k.unpack (k.routeAll r (k.packIn s k.n) k.cols) k.lines

end Benes

/-- `as_waksman_routing` (as_waksman.hpp:46-171). The variables of the packets `pk` and of the switch bits `sw` are given; what the constructor does for a
straight edge, reusing the variables (as_waksman.hpp:126-130), is the hypothesis `Asw.Reuse` of the theorems. -/
structure Asw where
  n : ℕ
  cols : ℕ
  w : ℕ
  cap : ℕ
  inB : ℕ → List ℕ
  outB : ℕ → List ℕ
  st : ℕ → ℕ → ℕ
  cr : ℕ → ℕ → ℕ
  pk : ℕ → ℕ → ℕ → ℕ
  sw : ℕ → ℕ → ℕ

namespace Asw
variable (k : Asw)

/-- `num_subpackets` (as_waksman.hpp:110). -/
def sub : ℕ := (k.w + k.cap - 1) / k.cap

/-- The rows at which the loop over `row_idx` finds a switch; after a switch one row is skipped (as_waksman.hpp:184-189, 229-231). `fuel` is the number of
rows left. -/
def heads (c : ℕ) : ℕ → ℕ → List ℕ
  | 0, _ => []
  | fuel + 1, i => if i < k.n then if k.st c i = k.cr c i then heads c fuel (i + 1) else i :: heads c fuel (i + 2) else []

/-- The constraints of the switch at rows `i`, `i + 1` (as_waksman.hpp:191-227). -/
def switch (c i : ℕ) : List (Constraint F) :=
  if k.sub = 1 then [i, i + 1].map fun x =>
    ⟨(Lc.var (k.pk c x 0)).sub (Lc.var (k.pk (c + 1) (k.st c x) 0)), (Lc.var (k.pk c x 0)).sub (Lc.var (k.pk (c + 1) (k.cr c x) 0)), Lc.const 0⟩
  else boolean (Lc.var (k.sw c i)) :: (List.range k.sub).flatMap fun j => [i, i + 1].map fun x =>
    ⟨Lc.var (k.sw c i), (Lc.var (k.pk (c + 1) (k.cr c x) j)).sub (Lc.var (k.pk (c + 1) (k.st c x) j)),
      (Lc.var (k.pk c x j)).sub (Lc.var (k.pk (c + 1) (k.st c x) j))⟩

/-- `generate_gates` (as_waksman.hpp:173-234). -/
def gates : List (Constraint F) :=
  ((List.range k.n).flatMap fun i => multiGates ((k.inB i).map Lc.var) (fun j => Lc.var (k.pk 0 i j)) k.cap false ++
    multiGates ((k.outB i).map Lc.var) (fun j => Lc.var (k.pk k.cols i j)) k.cap true) ++
  (List.range k.cols).flatMap fun c => (k.heads c k.n 0).flatMap fun i => k.switch c i

end Asw

end Routing
end R1cs
end Verif
