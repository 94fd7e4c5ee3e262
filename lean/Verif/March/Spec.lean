import Verif.March.Model

/-!
# Specification vocabulary for the distance function

Stated over the grid's neighbour relation and final values only.
-/

namespace Verif.March

/-- `o` is the least absolute value of `dist` over the neighbours of `i` along `dim` that satisfy
`S` (`none` if there is no such neighbour). -/
def MinOver (G : Grid) (S : Nat → Prop) (dist : Nat → ℝ) (i dim : Nat) : Option ℝ → Prop
  | none => ∀ dir a, G.nb i dim dir = some a → ¬ S a
  | some m => (∃ dir a, G.nb i dim dir = some a ∧ S a ∧ m = |dist a|) ∧
      ∀ dir a, G.nb i dim dir = some a → S a → m ≤ |dist a|

/-- Contribution of one axis to the discrete eikonal equation. -/
noncomputable def term (dx : ℝ) (o : Option ℝ) (r : ℝ) : ℝ :=
  match o with
  | none => 0
  | some m => ((r - m) / dx) ^ 2

/-- Contribution of one axis to the derivative of the left-hand side. -/
noncomputable def slope (dx : ℝ) (o : Option ℝ) (r : ℝ) : ℝ :=
  match o with
  | none => 0
  | some m => (r - m) / dx ^ 2

/-- `r` is the larger root of `∑_d ((r - m_d)/dx_d)^2 = 1`, the sum running over the axes along
which `i` has a neighbour in `S`, with `m_d` the least absolute distance among those. -/
def Eikonal (G : Grid) (dx : Nat → ℝ) (S : Nat → Prop) (dist : Nat → ℝ) (i : Nat) (r : ℝ) : Prop :=
  ∃ o : Nat → Option ℝ, (∀ d < G.ndim, MinOver G S dist i d (o d)) ∧
    ∑ d ∈ Finset.range G.ndim, term (dx d) (o d) r = 1 ∧
    0 < ∑ d ∈ Finset.range G.ndim, slope (dx d) (o d) r

/-- There is a sign change between `i` and its neighbour `a`. -/
def Crosses (P : Prob) (i a : Nat) : Prop := P.phi i * P.phi a < 0

/-- Cells at the interface: zero level set or a sign change towards a face neighbour. -/
def AtInterface (P : Prob) (i : Nat) : Prop :=
  P.phi i = 0 ∨ ∃ d < P.G.ndim, ∃ dir a, P.G.nb i d dir = some a ∧ Crosses P i a

/-- Distance along axis `d` to the linearly interpolated zero between `i` and `a`. -/
noncomputable def interpDist (P : Prob) (i a d : Nat) : ℝ :=
  P.dx d * (|P.phi i| / (|P.phi i| + |P.phi a|))

/-- What the algorithm needs to know about a grid. -/
structure Grid.WF (G : Grid) : Prop where
  lt : ∀ i d dir a, i < G.size → d < G.ndim → G.nb i d dir = some a → a < G.size
  symm : ∀ i d dir a, i < G.size → d < G.ndim → G.nb i d dir = some a → G.nb a d (!dir) = some i

/-- Face-neighbour connectivity. -/
inductive Grid.Conn (G : Grid) (i : Nat) : Nat → Prop
  | refl : Conn G i i
  | step {j a d : Nat} {dir : Bool} : Conn G i j → d < G.ndim → G.nb j d dir = some a → Conn G i a

end Verif.March
