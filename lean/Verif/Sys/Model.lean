import Verif.Sys.Params
import Mathlib.LinearAlgebra.Matrix.Determinant.Basic
import Mathlib.LinearAlgebra.Matrix.Trace

/-!
# Model of `src/system`: state vectors, energies, stress, fluxes, sources, Jacobians

A state vector is a function on indices; the code's arrays have `V` entries and only those are meaningful.  The
compile-time options of `options.h` are a parameter `Cfg`.  `nonlin_solve` inside `solve_multi` is the field `mix`:
any function.
-/

namespace Verif.Sys

/-- The options of options.h:5-8 and the result `(p, ρ1)` of the nonlinear solve in `solve_multi`. -/
structure Cfg where
  viscous : Bool
  thermal : Bool
  multi : Bool
  lset : Nat
  mix : Par → ℝ → ℝ → ℝ → ℝ × ℝ

/-- options.h:34-35. -/
def Cfg.mV (c : Cfg) : Nat := 5 + (if c.viscous then 9 else 0) + (if c.thermal then 3 else 0)

def Cfg.V (c : Cfg) : Nat := c.mV + (if c.multi then 1 else 0) + c.lset

abbrev St := Nat → ℝ
abbrev M3 := Matrix (Fin 3) (Fin 3) ℝ
abbrev V3 := Fin 3 → ℝ

/-! ### Writes to a state vector -/

/-- `ret(k) += x` -/
def addAt (k : Nat) (x : ℝ) (r : St) : St := fun i => if i = k then r i + x else r i

/-- `ret(k) = x` -/
def setAt (k : Nat) (x : ℝ) (r : St) : St := fun i => if i = k then x else r i

/-- `ret.segment<3>(k) += x` -/
def addSeg (k : Nat) (x : V3) (r : St) : St := addAt (k + 2) (x 2) (addAt (k + 1) (x 1) (addAt k (x 0) r))

/-- `ret.segment<3>(k) = x` -/
def setSeg (k : Nat) (x : V3) (r : St) : St := setAt (k + 2) (x 2) (setAt (k + 1) (x 1) (setAt k (x 0) r))

noncomputable section

/-! ### `functions/vectors.cpp`, `functions/matrices.cpp` -/

/-- vectors.cpp:6-10 -/
def getRv (Q : St) : V3 := fun i => Q (2 + i)

/-- vectors.cpp:12-16; row-major. -/
def getA (Q : St) : M3 := Matrix.of fun i j => Q (5 + (3 * i + j))

/-- vectors.cpp:18-22 -/
def getRJ (Q : St) : V3 := fun i => Q (14 + i)

/-- `ret.segment<9>(5) = Vec9Map(A.data())`, row-major. -/
def setA (A : M3) (r : St) : St :=
  setSeg 11 (A 2) (setSeg 8 (A 1) (setSeg 5 (A 0) r))

def vel (Q : St) : V3 := fun i => getRv Q i / Q 0

def sq3 (v : V3) : ℝ := v 0 * v 0 + v 1 * v 1 + v 2 * v 2

def dot3 (v w : V3) : ℝ := v 0 * w 0 + v 1 * w 1 + v 2 * w 2

/-- `AdevG`, matrices.cpp:8-15. -/
def AdevG (A : M3) : M3 :=
  let G := A.transpose * A
  let x := (G 0 0 + G 1 1 + G 2 2) / 3
  A * Matrix.of fun i j => if i = j then G i j - x else G i j

/-- `devGsq`, matrices.cpp:17-27. -/
def devGsq (A : M3) : ℝ :=
  let G00 := dot3 (A 0) (A 0)
  let G11 := dot3 (A 1) (A 1)
  let G22 := dot3 (A 2) (A 2)
  let G01 := dot3 (A 0) (A 1)
  let G02 := dot3 (A 0) (A 2)
  let G12 := dot3 (A 1) (A 2)
  let t := (G00 + G11 + G22) / 3
  (G00 - t) * (G00 - t) + (G11 - t) * (G11 - t) + (G22 - t) * (G22 - t) +
    2 * (G01 * G01 + G02 * G02 + G12 * G12)

/-- `sigma_norm`, matrices.cpp:29-41. -/
def sigmaNorm (σ : M3) : ℝ :=
  let tmp1 := (σ 0 0 - σ 1 1) * (σ 0 0 - σ 1 1) + (σ 1 1 - σ 2 2) * (σ 1 1 - σ 2 2) +
    (σ 2 2 - σ 0 0) * (σ 2 2 - σ 0 0)
  let tmp2 := σ 0 1 * σ 0 1 + σ 1 2 * σ 1 2 + σ 2 0 * σ 2 0
  Real.sqrt (0.5 * tmp1 + 3 * tmp2)

/-! ### `energy/eos.cpp` -/

/-- eos.cpp:21-25 -/
def E2A (P : Params) (ρ : ℝ) (A : M3) : ℝ := C0 P ρ / 4 * devGsq A

/-- eos.cpp:27-30 -/
def E2J (P : Params) (J : V3) : ℝ := P.cα2 * sq3 J / 2

/-- eos.cpp:32-35 -/
def E3 (v : V3) : ℝ := sq3 v / 2

/-- eos.cpp:37-41 -/
def ER (P : Par) (lam : ℝ) : ℝ := P.Qc * (lam - 1)

/-- The four overloads of `total_energy`, eos.cpp:43-70; absent arguments are `none`. -/
def totalEnergy (P : Par) (ρ p : ℝ) (A : M3) (J : Option V3) (v : V3) (lam : Option ℝ) : ℝ :=
  E1 P.toParams ρ p + E3 v + E2A P.toParams ρ A +
    (match J with | some J => E2J P.toParams J | none => 0) +
    (match lam with | some l => ER P l | none => 0)

/-- `internal_energy`, eos.cpp:72-94. -/
def internalEnergy (c : Cfg) (P : Par) (Q : St) : ℝ :=
  Q 1 / Q 0 - E3 (vel Q) - (if c.viscous then E2A P.toParams (Q 0) (getA Q) else 0) -
    (if c.thermal then E2J P.toParams (fun i => getRJ Q i / Q 0) else 0) -
    (if P.reaction > -1 then ER P (Q c.mV / Q 0) else 0)

/-- `solve_multi`, multi.cpp:32-63: `(p, ρ1, ρ2)`. -/
def solveMulti (c : Cfg) (P : Par) (Q : St) : ℝ × ℝ × ℝ :=
  let ρ := Q 0
  let e := internalEnergy c P Q
  let lam := Q c.mV / ρ
  if lam = 1 then (max (pressureMG P.toParams ρ e) 0, ρ, ρ)
  else if lam = 0 then (max (pressureMG P.mp2 ρ e) 0, ρ, ρ)
  else
    let r := c.mix P ρ e lam
    (r.1, r.2, (1 - lam) / (1 / ρ - lam / r.2))

/-! ### `variables/state.cpp`, `energy/derivatives.cpp` -/

/-- `pressure`, state.cpp:11-21. -/
def pressure (c : Cfg) (P : Par) (Q : St) : ℝ :=
  if P.multi then (solveMulti c P Q).1 else pressureMG P.toParams (Q 0) (internalEnergy c P Q)

/-- `temperature`, state.cpp:91-95. -/
def temperature (c : Cfg) (P : Par) (Q : St) : ℝ := temperatureMG P.toParams (Q 0) (pressure c P Q)

/-- `dEdρ`, derivatives.cpp:11-46. -/
def dEdrho (c : Cfg) (P : Par) (Q : St) : ℝ :=
  let ρ := Q 0
  let tmp := dC0 P.toParams ρ / 4 * devGsq (getA Q)
  if P.multi then
    let lam := Q c.mV / ρ
    let sol := solveMulti c P Q
    let p := sol.1
    let ρ1 := sol.2.1
    let ρ2 := sol.2.2
    let dT1 := dTdrho P.toParams ρ1 p
    let dT2 := dTdrho P.mp2 ρ2 p
    let k := lam / (ρ1 * ρ1) * dT2 + (1 - lam) / (ρ2 * ρ2) * dT1
    let dρ1 := 1 / (ρ * ρ * k) * dT2
    let dρ2 := 1 / (ρ * ρ * k) * dT1
    lam * dedrho P.toParams ρ1 p * dρ1 + (1 - lam) * dedrho P.mp2 ρ2 p * dρ2 + tmp
  else dedrho P.toParams ρ (pressure c P Q) + tmp

/-- `dEdp`, derivatives.cpp:48-65. -/
def dEdp (c : Cfg) (P : Par) (Q : St) : ℝ :=
  let ρ := Q 0
  if P.multi then
    let lam := Q c.mV / ρ
    let sol := solveMulti c P Q
    lam * dedp P.toParams sol.2.1 + (1 - lam) * dedp P.mp2 sol.2.2
  else dedp P.toParams ρ

/-- `dEdA`, derivatives.cpp:67-73. -/
def dEdA (P : Params) (Q : St) : M3 := C0 P (Q 0) • AdevG (getA Q)

/-- `dEdA_s`, derivatives.cpp:75-81. -/
def dEdAs (P : Params) (Q : St) : M3 := cs2 P (Q 0) • AdevG (getA Q)

/-- `dEdJ`, derivatives.cpp:83-88. -/
def dEdJ (P : Params) (Q : St) : V3 := fun i => P.cα2 * getRJ Q i / Q 0

/-- `sigma(Q, MP)`, state.cpp:23-29. -/
def sigma (P : Params) (Q : St) : M3 := (-Q 0) • ((dEdAs P Q).transpose * getA Q)

/-- `sigma(Q, MP, d)`, state.cpp:31-37. -/
def sigmaCol (P : Params) (Q : St) (d : Fin 3) : V3 :=
  (-Q 0) • (dEdAs P Q).transpose.mulVec (fun i => getA Q i d)

/-- `Sigma(Q, MP, d)`, state.cpp:39-46. -/
def SigmaCol (c : Cfg) (P : Par) (Q : St) (d : Fin 3) : V3 := fun i =>
  if i = d then -sigmaCol P.toParams Q d i + pressure c P Q else -sigmaCol P.toParams Q d i

/-- `dsigmadρ`, state.cpp:48-54. -/
def dsigmadrho (P : Params) (Q : St) (d : Fin 3) : V3 :=
  (1 / Q 0 + dcs2 P (Q 0) / cs2 P (Q 0)) • sigmaCol P Q d

/-- `dsigmadA(Q, MP, d)`, state.cpp:56-69. -/
def dsigmadAd (P : Params) (Q : St) (d : Fin 3) : M3 :=
  let A := getA Q
  let G := A.transpose * A
  let r0 := AdevG A
  let r1 : M3 := Matrix.of fun i j => if j = d then r0 i j * 2 else r0 i j
  let r2 : M3 := Matrix.of fun i j => r1 i j + 1 / 3 * A i d * G d j
  let r3 : M3 := Matrix.of fun i j => r2 i j + G d d * A i j
  (-Q 0 * cs2 P (Q 0)) • r3.transpose

/-- `dsigmadA(ρ, cs2, A, G, AdevG, i, j, m, n)`, state.cpp:71-84. -/
def dsigmadA (ρ cs2 : ℝ) (A G AdG : M3) (i j m n : Fin 3) : ℝ :=
  let r0 := A m i * G j n + A m j * G i n - 2 / 3 * G i j * A m n
  let r1 := if i = n then r0 + AdG m j else r0
  let r2 := if j = n then r1 + AdG m i else r1;
  -ρ * cs2 * r2

/-! ### `equations.cpp` -/

/-- The viscous part of `flux`, equations.cpp:26-36. -/
def fluxViscous (P : Par) (Q : St) (d : Fin 3) (r : St) : St :=
  let ρ := Q 0
  let σd := sigmaCol P.toParams Q d
  let Av : V3 := fun i => (getA Q).mulVec (getRv Q) i / ρ
  let r := addAt 1 (-(dot3 σd (getRv Q) / ρ)) r
  let r := addSeg 2 (fun i => -σd i) r
  addAt (11 + d) (Av 2) (addAt (8 + d) (Av 1) (addAt (5 + d) (Av 0) r))

/-- The thermal part, equations.cpp:37-44. -/
def fluxThermal (c : Cfg) (P : Par) (Q : St) (d : Fin 3) (r : St) : St :=
  let ρ := Q 0
  let T := temperatureMG P.toParams ρ (pressure c P Q)
  let vd := getRv Q d / ρ
  let r := addAt 1 (P.cα2 * T * getRJ Q d / ρ) r
  let r := addSeg 14 (fun i => vd * getRJ Q i) r
  addAt (14 + d) T r

/-- The part for every configuration, equations.cpp:15-24. -/
def fluxBase (c : Cfg) (P : Par) (Q : St) (d : Fin 3) (r : St) : St :=
  let p := pressure c P Q
  let vd := getRv Q d / Q 0
  let r := addAt 0 (getRv Q d) r
  let r := addAt 1 (vd * (Q 1 + p)) r
  let r := addSeg 2 (fun i => vd * getRv Q i) r
  addAt (2 + d) p r

/-- `flux(ret, Q, d, MP)`, equations.cpp:11-48. -/
def flux (c : Cfg) (P : Par) (Q : St) (d : Fin 3) (r : St) : St :=
  let r := fluxBase c P Q d r
  let r := if c.viscous then fluxViscous P Q d r else r
  let r := if c.thermal then fluxThermal c P Q d r else r
  if c.multi then setAt c.mV (Q c.mV * (getRv Q d / Q 0)) r else r

/-- `block(ret, Q, d)` on a zero matrix, equations.cpp:69-87, 173-174.  Row `5 + 3 i + d` loses the velocity. -/
def block (c : Cfg) (Q : St) (d : Fin 3) : Nat → Nat → ℝ := fun i j =>
  let vd := getRv Q d / Q 0
  let a := if c.viscous && decide (5 ≤ i) && decide (i < 14) && decide (i = j) then vd else 0
  let b := if c.viscous && decide (5 ≤ i) && decide (i < 14) && decide (5 ≤ j) && decide (j < 14) &&
      decide ((i - 5) / 3 = (j - 5) / 3) && decide ((i - 5) % 3 = d) then Q (2 + (j - 5) % 3) / Q 0 else 0
  if c.V - c.lset ≤ i ∧ i < c.V ∧ i = j then vd else a - b

/-- The nine distortion entries written by `B0dot`, `B1dot`, `B2dot`, equations.cpp:89-147. -/
def bdotA (x : St) (v : V3) (d : Fin 3) (i : Nat) : ℝ :=
  let k := 5 + 3 * ((i - 5) / 3)
  match d, (i - 5) % 3 with
  | 0, 0 => -v 1 * x (k + 1) - v 2 * x (k + 2)
  | 0, 1 => v 0 * x (k + 1)
  | 0, _ => v 0 * x (k + 2)
  | 1, 0 => v 1 * x k
  | 1, 1 => -v 0 * x k - v 2 * x (k + 2)
  | 1, _ => v 1 * x (k + 2)
  | 2, 0 => v 2 * x k
  | 2, 1 => v 2 * x (k + 1)
  | 2, _ => -v 0 * x k - v 1 * x (k + 1)

/-- `Bdot(ret, Q, x, d, MP)`, equations.cpp:89-167: `ret` before and after.  The level-set loop runs last. -/
def bdot (c : Cfg) (Q x : St) (d : Fin 3) (ret : St) : St := fun i =>
  if c.viscous then
    if c.V - c.lset ≤ i ∧ i < c.V then vel Q d * x i
    else if 5 ≤ i ∧ i < 14 then bdotA x (vel Q) d i
    else if i < c.V then 0 else ret i
  else ret i

/-! ### `jacobians.cpp` -/

/-- A matrix write `ret(i, j) op= x`. -/
def mset (i j : Nat) (x : ℝ) (M : Nat → Nat → ℝ) : Nat → Nat → ℝ := fun a b => if a = i ∧ b = j then x else M a b

def madd (i j : Nat) (x : ℝ) (M : Nat → Nat → ℝ) : Nat → Nat → ℝ :=
  fun a b => if a = i ∧ b = j then M a b + x else M a b

/-- `block<1,3>(i, j) = x` and `+= x` -/
def msetRow (i j : Nat) (x : V3) (M : Nat → Nat → ℝ) : Nat → Nat → ℝ :=
  mset i (j + 2) (x 2) (mset i (j + 1) (x 1) (mset i j (x 0) M))

def maddRow (i j : Nat) (x : V3) (M : Nat → Nat → ℝ) : Nat → Nat → ℝ :=
  madd i (j + 2) (x 2) (madd i (j + 1) (x 1) (madd i j (x 0) M))

/-- `block<3,1>(i, j) = x` and `+= x` -/
def msetCol (i j : Nat) (x : V3) (M : Nat → Nat → ℝ) : Nat → Nat → ℝ :=
  mset (i + 2) j (x 2) (mset (i + 1) j (x 1) (mset i j (x 0) M))

def maddCol (i j : Nat) (x : V3) (M : Nat → Nat → ℝ) : Nat → Nat → ℝ :=
  madd (i + 2) j (x 2) (madd (i + 1) j (x 1) (madd i j (x 0) M))

/-- `for i in k..k+2: ret(i, i) = x` -/
def msetDiag (k : Nat) (x : ℝ) (M : Nat → Nat → ℝ) : Nat → Nat → ℝ :=
  mset (k + 2) (k + 2) x (mset (k + 1) (k + 1) x (mset k k x M))

/-- jacobians.cpp:14-37 -/
def dFdPBase (c : Cfg) (P : Par) (Q : St) (d : Fin 3) : Nat → Nat → ℝ :=
  let ρ := Q 0
  let E := Q 1 / ρ
  let p := pressure c P Q
  let v := vel Q
  let Eρ := dEdrho c P Q
  let Ep := dEdp c P Q
  let vd := v d
  let r := mset 0 0 vd fun _ _ => 0
  let r := mset 0 (2 + d) ρ r
  let r := mset 1 0 ((E + ρ * Eρ) * vd) r
  let r := mset 1 1 ((ρ * Ep + 1) * vd) r
  let r := msetRow 1 2 (fun i => ρ * vd * v i) r
  let r := madd 1 (2 + d) (ρ * E + p) r
  let r := msetCol 2 0 (fun i => vd * v i) r
  let r := msetDiag 2 (ρ * vd) r
  let r := maddCol 2 (2 + d) (fun i => ρ * v i) r
  mset (2 + d) 1 1 r

/-- jacobians.cpp:45-55: the loops over `i`, `j`, `k` write each entry once. -/
def dFdPStress (P : Par) (Q : St) (d : Fin 3) (M : Nat → Nat → ℝ) : Nat → Nat → ℝ :=
  let A := getA Q
  let dsA := fun (k i j : Fin 3) => dsigmadA (Q 0) (cs2 P.toParams (Q 0)) A (A.transpose * A) (AdevG A) d k i j
  (List.finRange 3).foldl (fun M i => (List.finRange 3).foldl (fun M j =>
    let ind := 3 * i.1 + j.1
    let M := (List.finRange 3).foldl (fun M k => mset (2 + k.1) (5 + ind) (-dsA k i j) M) M
    mset 1 (5 + ind) (0 - vel Q 0 * dsA 0 i j - vel Q 1 * dsA 1 i j - vel Q 2 * dsA 2 i j) M) M) M

/-- jacobians.cpp:39-66 -/
def dFdPViscous (P : Par) (Q : St) (d : Fin 3) (M : Nat → Nat → ℝ) : Nat → Nat → ℝ :=
  let ρ := Q 0
  let v := vel Q
  let A := getA Q
  let σ := sigmaCol P.toParams Q d
  let σρ := dsigmadrho P.toParams Q d
  let ψ := dEdA P.toParams Q
  let r := dFdPStress P Q d M
  let r := madd 1 0 (-dot3 σρ v) r
  let r := maddRow 1 2 (fun i => -σ i) r
  let r := maddRow 1 5 (fun i => ρ * v d * ψ 0 i) r
  let r := maddRow 1 8 (fun i => ρ * v d * ψ 1 i) r
  let r := maddRow 1 11 (fun i => ρ * v d * ψ 2 i) r
  let r := maddCol 2 0 (fun i => -σρ i) r
  let r := msetRow (5 + d) 2 (A 0) r
  let r := msetRow (8 + d) 2 (A 1) r
  let r := msetRow (11 + d) 2 (A 2) r
  let r := msetRow (5 + d) 5 v r
  let r := msetRow (8 + d) 8 v r
  msetRow (11 + d) 11 v r

/-- jacobians.cpp:67-86 -/
def dFdPThermal (c : Cfg) (P : Par) (Q : St) (d : Fin 3) (M : Nat → Nat → ℝ) : Nat → Nat → ℝ :=
  let ρ := Q 0
  let p := pressure c P Q
  let v := vel Q
  let T := temperatureMG P.toParams ρ p
  let Tρ := dTdrho P.toParams ρ p
  let Tp := dTdp P.toParams ρ
  let J : V3 := fun i => getRJ Q i / ρ
  let H := dEdJ P.toParams Q
  let r := madd 1 0 (Tρ * H d) M
  let r := madd 1 1 (Tp * H d) r
  let r := msetRow 1 14 (fun i => ρ * v d * H i) r
  let r := madd 1 (14 + d) (P.cα2 * T) r
  let r := msetCol 14 0 (fun i => v d * J i) r
  let r := madd (14 + d) 0 Tρ r
  let r := mset (14 + d) 1 Tp r
  let r := msetCol 14 (2 + d) (fun i => ρ * J i) r
  msetDiag 14 (ρ * v d) r

/-- jacobians.cpp:88-96 -/
def dFdPMulti (c : Cfg) (P : Par) (Q : St) (d : Fin 3) (M : Nat → Nat → ℝ) : Nat → Nat → ℝ :=
  let ρ := Q 0
  let v := vel Q
  let lam := Q c.mV / ρ
  let r := mset c.mV 0 (v d * lam) M
  let r := mset c.mV (2 + d) (ρ * lam) r
  let r := mset c.mV c.mV (ρ * v d) r
  if P.reaction > -1 then mset 1 c.mV (P.Qc * (ρ * v d)) r else r

/-- `dFdP`, jacobians.cpp:10-98. -/
def dFdP (c : Cfg) (P : Par) (Q : St) (d : Fin 3) : Nat → Nat → ℝ :=
  let r := dFdPBase c P Q d
  let r := if c.viscous then dFdPViscous P Q d r else r
  let r := if c.thermal then dFdPThermal c P Q d r else r
  if c.multi then dFdPMulti c P Q d r else r

/-- `dPdQ`, jacobians.cpp:100-152. -/
def dPdQ (c : Cfg) (P : Par) (Q : St) : Nat → Nat → ℝ :=
  let ρ := Q 0
  let E := Q 1 / ρ
  let v := vel Q
  let Eρ := dEdrho c P Q
  let Ep := dEdp c P Q
  let Γ := 1 / (ρ * Ep)
  let J : V3 := fun i => getRJ Q i / ρ
  let tmp := sq3 v - (E + ρ * Eρ)
  let tmp := if c.thermal then tmp + P.cα2 * sq3 J else tmp
  let r : Nat → Nat → ℝ := fun i j => if i = j then 1 else 0
  let r := mset 1 0 (Γ * tmp) r
  let r := mset 1 1 Γ r
  let r := msetRow 1 2 (fun i => -Γ * v i) r
  let r := msetCol 2 0 (fun i => -v i / ρ) r
  let r := msetDiag 2 (1 / ρ) r
  let r := if c.viscous then
      let ψ := dEdA P.toParams Q
      msetRow 1 11 (fun i => -Γ * ρ * ψ 2 i) (msetRow 1 8 (fun i => -Γ * ρ * ψ 1 i)
        (msetRow 1 5 (fun i => -Γ * ρ * ψ 0 i) r))
    else r
  let r := if c.thermal then
      let H := dEdJ P.toParams Q
      msetDiag 14 (1 / ρ) (msetCol 14 0 (fun i => -J i / ρ) (msetRow 1 14 (fun i => -Γ * H i) r))
    else r
  if c.multi then
    let lam := Q c.mV / ρ
    let r := mset c.mV c.mV (1 / ρ) (mset c.mV 0 (-lam / ρ) r)
    if P.reaction > -1 then mset 1 c.mV (-Γ * P.Qc) (madd 1 0 (Γ * P.Qc * lam) r) else r
  else r

/-- `system_matrix`, equations.cpp:169-176. -/
def systemMatrix (c : Cfg) (P : Par) (Q : St) (d : Fin 3) : Nat → Nat → ℝ := fun i j =>
  (∑ k ∈ Finset.range c.V, dFdP c P Q d i k * dPdQ c P Q k j) + block c Q d i j

/-! ### Conversions, vectors.cpp:33-154 -/

/-- `Pvec`, vectors.cpp:33-44. -/
def pvec (c : Cfg) (P : Par) (Q : St) : St :=
  let ρ := Q 0
  let r := setAt 1 (pressure c P Q) Q
  let r := setSeg 2 (fun i => Q (2 + i) / ρ) r
  let r := if c.thermal then setSeg 14 (fun i => Q (14 + i) / ρ) r else r
  if c.multi then setAt c.mV (Q c.mV / ρ) r else r

/-- `Cvec`, vectors.cpp:46-83. -/
def cvec (c : Cfg) (M : Par) (P : St) : St :=
  let ρ := P 0
  let E := totalEnergy M ρ (P 1) (getA P) (if c.thermal then some (getRJ P) else none) (getRv P)
    (if c.multi then some (P c.mV) else none)
  let r := setAt 1 (ρ * E) P
  let r := setSeg 2 (fun i => P (2 + i) * ρ) r
  let r := if c.thermal then setSeg 14 (fun i => P (14 + i) * ρ) r else r
  if c.multi then setAt c.mV (P c.mV * ρ) r else r

/-- `Cvec_to_Pvec`, vectors.cpp:85-107. -/
def cvecToPvec (c : Cfg) (M : Par) (Q : St) : St :=
  let ρ := Q 0
  let A := getA Q
  let r := setAt 1 (pressure c M Q) Q
  let r := setSeg 2 (fun i => A i 0) r
  let r := setSeg 5 (fun i => A i 1) r
  let r := setSeg 8 (fun i => A i 2) r
  let r := setSeg 11 (fun i => getRv Q i / ρ) r
  let r := if c.thermal then setSeg 14 (fun i => r (14 + i) / ρ) r else r
  if c.multi then setAt c.mV (r c.mV / ρ) r else r

/-- `Pvec_to_Cvec`, vectors.cpp:109-154. -/
def pvecToCvec (c : Cfg) (M : Par) (P : St) : St :=
  let ρ := P 0
  let p := P 1
  let A : M3 := Matrix.of fun i j => P (2 + 3 * j + i)
  let v : V3 := fun i => P (11 + i)
  let r := setSeg 2 (fun i => ρ * v i) P
  let r := setA A r
  let r := if c.multi then setAt c.mV (r c.mV * ρ) r else r
  let lam : Option ℝ := if M.reaction > -1 then some (r c.mV / ρ) else none
  if c.thermal then
    let r' := setAt 1 (ρ * totalEnergy M ρ p A (some fun i => r (14 + i)) v lam) r
    setSeg 14 (fun i => r (14 + i) * ρ) r'
  else setAt 1 (ρ * totalEnergy M ρ p A none v lam) r

end

end Verif.Sys
