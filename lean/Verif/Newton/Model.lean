import Mathlib.Analysis.SpecialFunctions.Pow.Real

/-!
# `scipy/newton_krylov.cpp`

Numbers are reals, NaN and the two infinities; real operations are exact.  The sign of a zero is not tracked: the one
division whose denominator can vanish takes the sign as a parameter.  The inner linear solver (`KrylovJacobian::solve`,
with the memory it keeps in `outer_v`) is an arbitrary function.  Eigen leaves `lpNorm<Infinity>` of a vector with NaN
unspecified, so the norm is any function that is right on vectors without NaN.
-/

namespace Verif.Newton

attribute [local instance] Classical.propDecidable

noncomputable section

/-- A double, without rounding and without the sign of zero. -/
inductive Ext where
  | fin (r : ℝ)
  | nan
  | pinf
  | ninf

namespace Ext

/-- `-a`. -/
def neg : Ext → Ext
  | fin r => fin (-r)
  | nan => nan
  | pinf => ninf
  | ninf => pinf

/-- `a + b`. -/
def add : Ext → Ext → Ext
  | fin a, fin b => fin (a + b)
  | nan, _ => nan
  | _, nan => nan
  | pinf, ninf => nan
  | ninf, pinf => nan
  | pinf, _ => pinf
  | _, pinf => pinf
  | ninf, _ => ninf
  | _, ninf => ninf

/-- `a - b`. -/
def sub (a b : Ext) : Ext := a.add b.neg

/-- An infinity with the sign of `a`, NaN if that has none. -/
def signed : Ext → Ext
  | fin a => if 0 < a then pinf else if a < 0 then ninf else nan
  | a => a

/-- `a * b`. -/
def mul : Ext → Ext → Ext
  | fin a, fin b => fin (a * b)
  | nan, _ => nan
  | _, nan => nan
  | a, pinf => a.signed
  | pinf, a => a.signed
  | a, ninf => a.signed.neg
  | ninf, a => a.signed.neg

/-- `a / b`; `s` tells whether a zero denominator is negative. -/
def div (s : Bool) : Ext → Ext → Ext
  | fin a, fin b => if b = 0 then (if s then (signed (fin a)).neg else signed (fin a)) else fin (a / b)
  | nan, _ => nan
  | _, nan => nan
  | fin _, _ => fin 0
  | pinf, fin b => if b = 0 then (if s then ninf else pinf) else (signed (fin b))
  | ninf, fin b => if b = 0 then (if s then pinf else ninf) else (signed (fin b)).neg
  | _, _ => nan

/-- `std::abs`. -/
def abs : Ext → Ext
  | fin r => fin |r|
  | nan => nan
  | _ => pinf

/-- `sqrt` of a number that is not negative. -/
def sqrt : Ext → Ext
  | fin r => fin (Real.sqrt r)
  | a => a

/-- `a <= b`: false if one of them is NaN. -/
def le : Ext → Ext → Prop
  | fin a, fin b => a ≤ b
  | nan, _ => False
  | _, nan => False
  | ninf, _ => True
  | _, pinf => True
  | _, _ => False

/-- `a < b`. -/
def lt : Ext → Ext → Prop
  | fin a, fin b => a < b
  | nan, _ => False
  | _, nan => False
  | ninf, ninf => False
  | ninf, _ => True
  | pinf, _ => False
  | _, pinf => True
  | _, _ => False

/-- `a == b`. -/
def eq : Ext → Ext → Prop
  | fin a, fin b => a = b
  | pinf, pinf => True
  | ninf, ninf => True
  | _, _ => False

/-- `std::min(a, b)`: `b < a ? b : a`. -/
def min (a b : Ext) : Ext := if b.lt a then b else a

/-- `std::max(a, b)`: `a < b ? b : a`. -/
def max (a b : Ext) : Ext := if a.lt b then b else a

end Ext

open Ext

/-- `Vec`. -/
abbrev Vec (n : Nat) := Fin n → Ext

/-- `x + s * dx`. -/
def axpy {n : Nat} (x : Vec n) (s : Ext) (dx : Vec n) : Vec n := fun i => (x i).add (s.mul (dx i))

/-- `v.squaredNorm()`. -/
def squaredNorm {n : Nat} (v : Vec n) : Ext := (List.ofFn fun i => (v i).mul (v i)).foldl add (fin 0)

/-- `v.norm()`. -/
def norm {n : Nat} (v : Vec n) : Ext := (squaredNorm v).sqrt

/-- `maxnorm`, newton_krylov.cpp:7: `nm` is right on vectors without NaN. -/
structure IsMaxNorm {n : Nat} (nm : Vec n → Ext) : Prop where
  ge : ∀ v : Vec n, (∀ i, v i ≠ nan) → ∀ i, (v i).abs.le (nm v)
  att : ∀ v : Vec n, (∀ i, v i ≠ nan) → ∃ i, nm v = (v i).abs

/-- `INF`, globals.h:38: the largest double, not an infinity. -/
def INF : ℝ := (2 ^ 53 - 1) * 2 ^ 971

/-- What `phi` remembers: `tmp_s`, `tmp_phi`, `tmp_Fx`. -/
structure Cache (n : Nat) where
  s : Ext
  phi : Ext
  Fx : Vec n

/-- `phi`, newton_krylov.cpp:78-89. -/
def phi {n : Nat} (F : Vec n → Vec n) (x dx : Vec n) (s : Ext) (c : Cache n) : Ext × Cache n :=
  if s.eq c.s then (c.phi, c)
  else
    let v := F (axpy x s dx)
    let p := squaredNorm v
    (p, ⟨s, p, v⟩)

/-- The test `phi_a <= phi0 - c1 * alpha * phi0` with `c1 = 1e-4`, newton_krylov.cpp:99, 105, 118. -/
def armijo (phi0 alpha phia : Ext) : Prop := phia.le (phi0.sub (((fin 1e-4).mul alpha).mul phi0))

/-- `alpha2`, newton_krylov.cpp:109-115; `z` is the sign of `a` if that is zero. -/
def trial (z : Bool) (phi0 alpha1 phia0 phia1 : Ext) : Ext :=
  let factor := (alpha1.mul alpha1).mul (alpha1.sub (fin 1))
  let a := ((phia1.sub phi0).add (phi0.mul alpha1)).sub ((alpha1.mul alpha1).mul phia0)
  let a := a.div false factor
  let b := ((phia1.sub phi0).add (phi0.mul alpha1)).neg.add (((alpha1.mul alpha1).mul alpha1).mul phia0)
  let b := b.div false factor
  (b.neg.add ((b.mul b).add (((fin 3).mul a).mul phi0)).abs.sqrt).div z ((fin 3).mul a)

/-- The loop of `scalar_search_armijo`, newton_krylov.cpp:108-126; `none` if `fuel` passes do not end it. -/
def search {n : Nat} (z : Ext → Bool) (F : Vec n → Vec n) (x dx : Vec n) (phi0 : Ext) :
    Nat → Ext → Ext → Ext → Cache n → Option (Ext × Cache n)
  | 0, _, _, _, _ => none
  | fuel + 1, alpha1, phia0, phia1, c =>
    if (fin 1e-2).lt alpha1 then
      let alpha2 := trial (z alpha1) phi0 alpha1 phia0 phia1
      let p := phi F x dx alpha2 c
      if armijo phi0 alpha2 p.1 then some (alpha2, p.2)
      else
        let alpha2 := if (alpha1.div false (fin 2)).lt (alpha1.sub alpha2) ∨
            ((fin 1).sub (alpha2.div false alpha1)).lt (fin 0.96) then alpha1.div false (fin 2) else alpha2
        search z F x dx phi0 fuel alpha2 phia1 p.1 p.2
    else some (fin 1, c)

/-- `scalar_search_armijo`, newton_krylov.cpp:91-127. -/
def armijoSearch {n : Nat} (z : Ext → Bool) (fuel : Nat) (F : Vec n → Vec n) (x dx : Vec n) (phi0 : Ext) (c : Cache n) :
    Option (Ext × Cache n) :=
  let p0 := phi F x dx (fin 1) c
  if p0.1.le (phi0.sub ((fin 1e-4).mul phi0)) then some (fin 1, p0.2)
  else
    let alpha1 := phi0.div false ((fin 2).mul p0.1)
    let p1 := phi F x dx alpha1 p0.2
    if armijo phi0 alpha1 p1.1 then some (alpha1, p1.2)
    else search z F x dx phi0 fuel alpha1 p0.1 p1.1 p1.2

/-- `_nonlin_line_search`, newton_krylov.cpp:129-141: the new `x` and `Fx`. -/
def lineSearch {n : Nat} (z : Ext → Bool) (fuel : Nat) (F : Vec n → Vec n) (x Fx dx : Vec n) : Option (Vec n × Vec n) :=
  (armijoSearch z fuel F x dx (squaredNorm Fx) ⟨fin 0, squaredNorm Fx, Fx⟩).map fun r =>
    let x' := axpy x r.1 dx
    (x', if r.1.eq r.2.s then r.2.Fx else F x')

/-- The tolerances of `nonlin_solve`. -/
structure Tol where
  f : ℝ
  fr : ℝ
  x : ℝ
  xr : ℝ

/-- `TerminationCondition::check`, newton_krylov.cpp:63-76: the verdict and the new `f0_norm`. -/
def check {n : Nat} (nm : Vec n → Ext) (T : Tol) (f0 : Ext) (f x dx : Vec n) : Prop × Ext :=
  let fn := nm f
  let f0 := if f0.eq (fin 0) then fn else f0
  (fn.eq (fin 0) ∨ (fn.le (fin T.f) ∧ (fn.div false (fin T.fr)).le f0) ∧
    ((nm dx).le (fin T.x) ∧ ((nm dx).div false (fin T.xr)).le (nm x)), f0)

/-- The variables of the loop of `nonlin_solve`; `jac` is the memory of the inner solver. -/
structure Loop (n : Nat) (σ : Type) where
  x : Vec n
  Fx : Vec n
  FxNorm : Ext
  eta : Ext
  f0 : Ext
  jac : σ

/-- The new `eta`, newton_krylov.cpp:173-177. -/
def nextEta (eta new old : Ext) : Ext :=
  let etaA := (((fin 0.9).mul new).mul new).div false (old.mul old)
  if (((fin 0.9).mul eta).mul eta).lt (fin 0.1) then (fin 0.9999).min etaA
  else (fin 0.9999).min (etaA.max (((fin 0.9).mul eta).mul eta))

/-- One pass of the loop of `nonlin_solve`, newton_krylov.cpp:165-180; `solve` is `jacobian.solve` at `x`. -/
def pass {n : Nat} {σ : Type} (z : Ext → Bool) (fuel : Nat) (F : Vec n → Vec n)
    (solve : σ → Vec n → Vec n → Ext → σ × Vec n) (s : Loop n σ) : Option (Loop n σ) :=
  let tol := s.eta.min (s.eta.mul s.FxNorm)
  let r := solve s.jac s.x s.Fx tol
  (lineSearch z fuel F s.x s.Fx fun i => (r.2 i).neg).map fun y =>
    ⟨y.1, y.2, norm y.2, nextEta s.eta (norm y.2) s.FxNorm, s.f0, r.1⟩

/-- The loop of `nonlin_solve`, newton_krylov.cpp:160-180, with at most `k` passes; the flag tells whether `check` ended
it.  The `dx` that `check` sees is the one of line 152: line 166 declares another variable of that name. -/
def loop {n : Nat} {σ : Type} (nm : Vec n → Ext) (T : Tol) (z : Ext → Bool) (fuel : Nat) (F : Vec n → Vec n)
    (solve : σ → Vec n → Vec n → Ext → σ × Vec n) : Nat → Loop n σ → Option (Vec n × Bool)
  | 0, s => some (s.x, false)
  | k + 1, s =>
    let v := check nm T s.f0 s.Fx s.x (fun _ => fin INF)
    if v.1 then some (s.x, true)
    else (pass z fuel F solve { s with f0 := v.2 }).bind (loop nm T z fuel F solve k)

/-- `nonlin_solve`, newton_krylov.cpp:143-182: the result, and whether it came before the iterations ran out. -/
def nonlinSolve {n : Nat} {σ : Type} (nm : Vec n → Ext) (T : Tol) (z : Ext → Bool) (fuel : Nat) (F : Vec n → Vec n)
    (solve : σ → Vec n → Vec n → Ext → σ × Vec n) (jac : σ) (x : Vec n) : Option (Vec n × Bool) :=
  loop nm T z fuel F solve (3 * (n + 1)) ⟨x, F x, nm (F x), fin 1e-3, fin 0, jac⟩

/-- The tolerances a caller gets who passes only `f_tol`, newton_krylov.h:40-41. -/
def defaultTol (f : ℝ) : Tol := ⟨f, INF, INF, INF⟩

end

end Verif.Newton
