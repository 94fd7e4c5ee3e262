import Mathlib.Analysis.SpecialFunctions.Pow.Real

/-!
# Model of `src/system/objects.h` and `src/system/energy/mg.cpp`

Material parameters and the Mie-Grüneisen functions over the reals.  `pow(x, y)` is `Real.rpow`, which agrees
with the C function for positive bases; the C function returns NaN for a negative base and a fractional exponent,
so theorems ask for positive densities.  An unknown `EOS` code makes every function of mg.cpp throw; the model
has the five known codes only.
-/

namespace Verif.Sys

/-- mg.h:6-11. -/
inductive Eos
  | stiffenedGas | shockMG | jwl | cochranChan | godunovRomenski
  deriving DecidableEq

/-- objects.h:22-58. -/
structure Params where
  eos : Eos
  ρ0 : ℝ
  Tref : ℝ
  cv : ℝ
  pINF : ℝ
  Γ0 : ℝ
  c02 : ℝ
  s : ℝ
  α : ℝ
  β : ℝ
  γ : ℝ
  A : ℝ
  B : ℝ
  R1 : ℝ
  R2 : ℝ
  b02 : ℝ
  μ : ℝ
  τ0 : ℝ
  σY : ℝ
  n : ℝ
  cα2 : ℝ
  κ : ℝ

/-- objects.h:60-98 (`bf2`, `bs2`, `τf`, `τs` are read by commented-out code only and omitted). -/
structure Par extends Params where
  solid : Bool
  powerLaw : Bool
  multi : Bool
  bingham : Bool
  T0 : ℝ
  δp : Fin 3 → ℝ
  mp2 : Params
  reaction : Int
  Qc : ℝ
  Kc : ℝ
  Ti : ℝ
  Bc : ℝ
  Ea : ℝ
  Rc : ℝ
  I : ℝ
  G1 : ℝ
  G2 : ℝ
  a : ℝ
  b : ℝ
  c : ℝ
  d : ℝ
  e : ℝ
  g : ℝ
  x : ℝ
  y : ℝ
  z : ℝ
  φI : ℝ
  φG1 : ℝ
  φG2 : ℝ

noncomputable section

/-- `Γ_MG`, mg.cpp:6-29. -/
def gammaMG (P : Params) (ρ : ℝ) : ℝ :=
  match P.eos with
  | .stiffenedGas => P.γ - 1
  | .shockMG => P.Γ0 * P.ρ0 / ρ
  | .godunovRomenski => P.γ
  | .jwl => P.Γ0
  | .cochranChan => P.Γ0

/-- `p_ref`, mg.cpp:31-77. -/
def pRef (P : Params) (ρ : ℝ) : ℝ :=
  match P.eos with
  | .stiffenedGas => -P.pINF
  | .shockMG =>
    if ρ > P.ρ0 then
      let tmp := 1 / P.ρ0 - P.s * (1 / P.ρ0 - 1 / ρ)
      P.c02 * (1 / P.ρ0 - 1 / ρ) / (tmp * tmp)
    else P.c02 * (ρ - P.ρ0)
  | .godunovRomenski =>
    let tmp := (ρ / P.ρ0) ^ P.α
    P.c02 * ρ / P.α * (tmp - 1) * tmp
  | .jwl =>
    let v := P.ρ0 / ρ
    P.A * Real.exp (-P.R1 * v) + P.B * Real.exp (-P.R2 * v)
  | .cochranChan =>
    let v := P.ρ0 / ρ
    P.A * v ^ (-P.R1) - P.B * v ^ (-P.R2)

/-- `e_ref`, mg.cpp:79-124. -/
def eRef (P : Params) (ρ : ℝ) : ℝ :=
  match P.eos with
  | .stiffenedGas => P.pINF / ρ
  | .shockMG => if ρ > P.ρ0 then 0.5 * pRef P ρ * (1 / P.ρ0 - 1 / ρ) else 0
  | .godunovRomenski =>
    let tmp := (ρ / P.ρ0) ^ P.α
    P.c02 / (2 * P.α * P.α) * (tmp - 1) * (tmp - 1)
  | .jwl =>
    let v := P.ρ0 / ρ
    P.A / (P.ρ0 * P.R1) * Real.exp (-P.R1 * v) + P.B / (P.ρ0 * P.R2) * Real.exp (-P.R2 * v)
  | .cochranChan =>
    let v := P.ρ0 / ρ;
    -P.A / (P.ρ0 * (1 - P.R1)) * (v ^ (1 - P.R1) - 1) + P.B / (P.ρ0 * (1 - P.R2)) * (v ^ (1 - P.R2) - 1)

/-- `pressure_mg`, mg.cpp:126-131. -/
def pressureMG (P : Params) (ρ e : ℝ) : ℝ := (e - eRef P ρ) * ρ * gammaMG P ρ + pRef P ρ

/-- `φ`, mg.cpp:141-165. -/
def phi (P : Params) (ρ : ℝ) : ℝ :=
  match P.eos with
  | .stiffenedGas => (ρ / P.ρ0) ^ (P.γ - 1)
  | .shockMG => Real.exp (P.Γ0 * (1 - P.ρ0 / ρ))
  | .godunovRomenski => (ρ / P.ρ0) ^ P.γ
  | .jwl => (ρ / P.ρ0) ^ P.Γ0
  | .cochranChan => (ρ / P.ρ0) ^ P.Γ0

/-- `temperature_mg`, mg.cpp:133-139. -/
def temperatureMG (P : Params) (ρ p : ℝ) : ℝ :=
  phi P ρ * P.Tref + (p - pRef P ρ) / (ρ * gammaMG P ρ * P.cv)

/-- `dΓ_MG`, mg.cpp:167-186. -/
def dGammaMG (P : Params) (ρ : ℝ) : ℝ :=
  match P.eos with
  | .shockMG => -P.Γ0 * P.ρ0 / (ρ * ρ)
  | .stiffenedGas => 0
  | .jwl => 0
  | .cochranChan => 0
  | .godunovRomenski => 0

/-- `dp_ref`, mg.cpp:188-235. -/
def dpRef (P : Params) (ρ : ℝ) : ℝ :=
  match P.eos with
  | .stiffenedGas => 0
  | .shockMG =>
    if ρ > P.ρ0 then
      let tmp := P.s * (ρ - P.ρ0) - ρ
      P.c02 * P.ρ0 * P.ρ0 * (P.s * (P.ρ0 - ρ) - ρ) / (tmp * tmp * tmp)
    else P.c02
  | .godunovRomenski =>
    let tmp := (ρ / P.ρ0) ^ P.α
    P.c02 / P.α * tmp * ((1 + P.α) * (tmp - 1) + P.α * tmp)
  | .jwl =>
    let v := P.ρ0 / ρ
    v / ρ * (P.A * P.R1 * Real.exp (-P.R1 * v) + P.B * P.R2 * Real.exp (-P.R2 * v))
  | .cochranChan =>
    let v := P.ρ0 / ρ
    P.A * P.R1 / ρ * v ^ (-P.R1) - P.B * P.R2 / ρ * v ^ (-P.R2)

/-- `de_ref`, mg.cpp:237-263. -/
def deRef (P : Params) (ρ : ℝ) : ℝ :=
  match P.eos with
  | .stiffenedGas => pRef P ρ / (ρ * ρ)
  | .godunovRomenski => pRef P ρ / (ρ * ρ)
  | .jwl => pRef P ρ / (ρ * ρ)
  | .cochranChan => pRef P ρ / (ρ * ρ)
  | .shockMG =>
    if ρ > P.ρ0 then
      let tmp := P.s * (ρ - P.ρ0) - ρ;
      -(ρ - P.ρ0) * P.ρ0 * P.c02 / (tmp * tmp * tmp)
    else 0

/-- `dedρ`, mg.cpp:265-273. -/
def dedrho (P : Params) (ρ p : ℝ) : ℝ :=
  let Γ := gammaMG P ρ
  deRef P ρ - (dpRef P ρ * ρ * Γ + (Γ + ρ * dGammaMG P ρ) * (p - pRef P ρ)) / ((ρ * Γ) * (ρ * Γ))

/-- `dedp`, mg.cpp:275-279. -/
def dedp (P : Params) (ρ : ℝ) : ℝ := 1 / (ρ * gammaMG P ρ)

/-- `dTdρ`, mg.cpp:281-294. -/
def dTdrho (P : Params) (ρ p : ℝ) : ℝ :=
  let Γ := gammaMG P ρ;
  -(dpRef P ρ * ρ * Γ + (Γ + ρ * dGammaMG P ρ) * (p - pRef P ρ)) / ((ρ * Γ) * (ρ * Γ)) / P.cv

/-- `dTdp`, mg.cpp:296-303. -/
def dTdp (P : Params) (ρ : ℝ) : ℝ := dedp P ρ / P.cv

/-- `c_s2`, waves/shear.cpp:6-13. -/
def cs2 (P : Params) (ρ : ℝ) : ℝ := P.b02 * (ρ / P.ρ0) ^ P.β

/-- `dc_s2dρ`, waves/shear.cpp:15-20. -/
def dcs2 (P : Params) (ρ : ℝ) : ℝ := P.β / ρ * cs2 P ρ

/-- `C_0`, waves/shear.cpp:22-28. -/
def C0 (P : Params) (ρ : ℝ) : ℝ := (1 - P.β / gammaMG P ρ) * cs2 P ρ

/-- `dC_0dρ`, waves/shear.cpp:30-41. -/
def dC0 (P : Params) (ρ : ℝ) : ℝ :=
  let Γ := gammaMG P ρ
  (1 - P.β / Γ) * dcs2 P ρ + P.β / (Γ * Γ) * dGammaMG P ρ * cs2 P ρ

/-- `E_1`, energy/eos.cpp:10-19. -/
def E1 (P : Params) (ρ p : ℝ) : ℝ := eRef P ρ + (p - pRef P ρ) / (ρ * gammaMG P ρ)

/-- A sample material used by examples: unit parameters, `γ = Γ0 = 2`, `s = 1/2`, `R2 = 2`. -/
def sample : Params where
  eos := .stiffenedGas
  ρ0 := 1
  Tref := 0
  cv := 1
  pINF := 0
  Γ0 := 2
  c02 := 1
  s := 1 / 2
  α := 1
  β := 1
  γ := 2
  A := 1
  B := 1
  R1 := 3
  R2 := 2
  b02 := 1
  μ := 1
  τ0 := 1
  σY := 1
  n := 1
  cα2 := 1
  κ := 1

def samplePar (P : Params) : Par where
  toParams := P
  solid := false
  powerLaw := false
  multi := false
  bingham := false
  T0 := 0
  δp := 0
  mp2 := P
  reaction := -1
  Qc := 1
  Kc := 1
  Ti := 1
  Bc := 1
  Ea := 1
  Rc := 1
  I := 1
  G1 := 1
  G2 := 1
  a := 0
  b := 1
  c := 1
  d := 1
  e := 1
  g := 1
  x := 1
  y := 1
  z := 1
  φI := 1
  φG1 := 1
  φG2 := 0

end

end Verif.Sys
