import Verif.Newton.Solve
import Verif.Step.Real
import Verif.Relax.Source

/-! # The schemes with the Newton solver and the equations of the code in place of assumptions -/

namespace Verif.Newton

open Ext Verif.Sys Verif.Dg Verif.Step Verif.Fv Verif.Relax

attribute [local instance] Classical.propDecidable

noncomputable section

variable {n V : Nat} {σ : Type}

/-- A matrix with `m` rows as the vector `VecMap q0v(q0.data(), …)` sees it, dg1.cpp:82, dg2.cpp:131. -/
def pack (m : Nat) (q : Nat → Fin V → ℝ) : Vec (m * V) := fun k =>
  fin (q (k / V) ⟨k % V, Nat.mod_lt _ (Nat.pos_of_ne_zero fun h => by have := k.2; simp [h] at this)⟩)

/-- The vector as a matrix; `q` is what lies behind the last row, and entries that are not numbers are dropped. -/
def unpack (m : Nat) (q : Nat → Fin V → ℝ) (x : Vec (m * V)) : Nat → Fin V → ℝ := fun r v =>
  if h : r < m then
    match x ⟨r * V + v, by
      calc r * V + v < r * V + V := by omega
        _ = (r + 1) * V := by ring
        _ ≤ m * V := Nat.mul_le_mul_right _ h⟩ with
    | fin y => y
    | _ => 0
  else q r v

theorem unpack_pack (m : Nat) (q : Nat → Fin V → ℝ) : unpack m q (pack m q) = q := by
  funext r v
  unfold unpack pack
  split_ifs with h
  · have hV : 0 < V := v.pos
    have e1 : (r * V + v) / V = r := by
      rw [Nat.mul_comm, Nat.mul_add_div hV, Nat.div_eq_of_lt v.2, Nat.add_zero]
    have e2 : (r * V + v) % V = v := by rw [Nat.mul_comm, Nat.mul_add_mod, Nat.mod_eq_of_lt v.2]
    simp only [e1, e2]
  · rfl

/-- A residual on matrices as a residual on vectors; `bad` is its value where some entry is not a number. -/
def residual (m : Nat) (q : Nat → Fin V → ℝ) (bad : Vec (m * V) → Vec (m * V))
    (f : (Nat → Fin V → ℝ) → Nat → Fin V → ℝ) (x : Vec (m * V)) : Vec (m * V) :=
  if ∀ k, ∃ y, x k = fin y then pack m (f (unpack m q x)) else bad x

/-- `nonlin_solve(obj_bound, q0v, DG_TOL)`, dg1.cpp:84, dg2.cpp:133, on matrices. -/
def solveRows (m : Nat) (nm : Vec (m * V) → Ext) (tol : ℝ) (z : Ext → Bool) (fuel : Nat)
    (solve : σ → Vec (m * V) → Vec (m * V) → Ext → σ × Vec (m * V)) (jac : σ) (bad : Vec (m * V) → Vec (m * V))
    (f : (Nat → Fin V → ℝ) → Nat → Fin V → ℝ) (q : Nat → Fin V → ℝ) : Nat → Fin V → ℝ :=
  match nonlinSolve nm (defaultTol tol) z fuel (residual m q bad f) solve jac (pack m q) with
  | some r => unpack m q r.1
  | none => q

theorem solveRows_root (m : Nat) (nm : Vec (m * V) → Ext) (hm : IsMaxNorm nm) (tol : ℝ) (z : Ext → Bool) (fuel : Nat)
    (solve : σ → Vec (m * V) → Vec (m * V) → Ext → σ × Vec (m * V)) (jac : σ) (bad : Vec (m * V) → Vec (m * V))
    (f : (Nat → Fin V → ℝ) → Nat → Fin V → ℝ) (q : Nat → Fin V → ℝ) (h : ∀ r < m, ∀ v, f q r v = 0) :
    solveRows m nm tol z fuel solve jac bad f q = q := by
  have hr : ∀ k, residual m q bad f (pack m q) k = fin 0 := by
    intro k
    unfold residual
    rw [if_pos fun k => ⟨_, rfl⟩, unpack_pack]
    unfold pack
    rw [h _ (Nat.div_lt_of_lt_mul (lt_of_lt_of_eq k.2 (Nat.mul_comm _ _)))]
  unfold solveRows
  rw [root_stays nm hm _ z fuel _ solve jac _ hr]
  exact unpack_pack m q

/-- The residual of one cell, one dimension. -/
def rows1Obj (S : Dg.Sys (Fin V)) (T : Tab n) (Ww : Nat → Fin V → ℝ) (dt dx : ℝ) (q : Nat → Fin V → ℝ) :
    Nat → Fin V → ℝ := fun r v =>
  if h : r / n < n ∧ r % n < n then obj1 S T q Ww dt dx ⟨r / n, h.1⟩ ⟨r % n, h.2⟩ v else 0

/-- The residual of one cell, two dimensions. -/
def rows2Obj (S : Dg.Sys (Fin V)) (T : Tab n) (Ww : Nat → Fin V → ℝ) (dt dx dy : ℝ) (q : Nat → Fin V → ℝ) :
    Nat → Fin V → ℝ := fun r v =>
  if h : r / n / n < n ∧ r / n % n < n ∧ r % n < n then
    obj2 S T q Ww dt dx dy ⟨r / n / n, h.1⟩ ⟨r / n % n, h.2.1⟩ ⟨r % n, h.2.2⟩ v else 0

/-- The solver of `predictor1`. -/
def newton1 (S : Dg.Sys (Fin V)) (T : Tab n) (dt dx : ℝ) (nm : Vec (n * n * V) → Ext) (tol : ℝ) (z : Ext → Bool)
    (fuel : Nat) (solve : σ → Vec (n * n * V) → Vec (n * n * V) → Ext → σ × Vec (n * n * V)) (jac : σ)
    (bad : Vec (n * n * V) → Vec (n * n * V)) (w : Fin n → Fin V → ℝ) : Nat → Fin V → ℝ :=
  solveRows (n * n) nm tol z fuel solve jac bad (rows1Obj S T (initialCondition1 T (rows1 w)) dt dx)
    (standardInitialGuess1 n (rows1 w))

/-- The solver of `predictor2`. -/
def newton2 (S : Dg.Sys (Fin V)) (T : Tab n) (dt dx dy : ℝ) (nm : Vec (n * (n * n) * V) → Ext) (tol : ℝ) (z : Ext → Bool)
    (fuel : Nat) (solve : σ → Vec (n * (n * n) * V) → Vec (n * (n * n) * V) → Ext → σ × Vec (n * (n * n) * V)) (jac : σ)
    (bad : Vec (n * (n * n) * V) → Vec (n * (n * n) * V)) (w : Fin n → Fin n → Fin V → ℝ) : Nat → Fin V → ℝ :=
  solveRows (n * (n * n)) nm tol z fuel solve jac bad (rows2Obj S T (initialCondition2 T (rows2 w)) dt dx dy)
    (standardInitialGuess2 n (rows2 w))

theorem newton1_root (S : Dg.Sys (Fin V)) (T : Tab n) (dt dx : ℝ) (nm : Vec (n * n * V) → Ext) (hm : IsMaxNorm nm)
    (tol : ℝ) (z : Ext → Bool) (fuel : Nat)
    (solve : σ → Vec (n * n * V) → Vec (n * n * V) → Ext → σ × Vec (n * n * V)) (jac : σ)
    (bad : Vec (n * n * V) → Vec (n * n * V)) (w : Fin n → Fin V → ℝ)
    (h : ∀ t i : Fin n, ∀ v, obj1 S T (standardInitialGuess1 n (rows1 w)) (initialCondition1 T (rows1 w)) dt dx t i v = 0) :
    newton1 S T dt dx nm tol z fuel solve jac bad w = standardInitialGuess1 n (rows1 w) := by
  refine solveRows_root _ nm hm tol z fuel solve jac bad _ _ fun r hr v => ?_
  unfold rows1Obj
  split_ifs with hh
  · exact h _ _ v
  · rfl

theorem newton2_root (S : Dg.Sys (Fin V)) (T : Tab n) (dt dx dy : ℝ) (nm : Vec (n * (n * n) * V) → Ext)
    (hm : IsMaxNorm nm) (tol : ℝ) (z : Ext → Bool) (fuel : Nat)
    (solve : σ → Vec (n * (n * n) * V) → Vec (n * (n * n) * V) → Ext → σ × Vec (n * (n * n) * V)) (jac : σ)
    (bad : Vec (n * (n * n) * V) → Vec (n * (n * n) * V)) (w : Fin n → Fin n → Fin V → ℝ)
    (h : ∀ t i j : Fin n, ∀ v, obj2 S T (standardInitialGuess2 n (rows2 w)) (initialCondition2 T (rows2 w)) dt dx dy t i j v
      = 0) :
    newton2 S T dt dx dy nm tol z fuel solve jac bad w = standardInitialGuess2 n (rows2 w) := by
  refine solveRows_root _ nm hm tol z fuel solve jac bad _ _ fun r hr v => ?_
  unfold rows2Obj
  split_ifs with hh
  · exact h _ _ _ v
  · rfl

/-- A state on which no source acts: no strain, no heat flux, no force, no reaction. -/
structure AtEase (c : Cfg) (P : Par) (Q : St) : Prop where
  strain : AdevG (getA Q) = 0
  heat : c.thermal = true → getRJ Q = 0
  force : P.δp = 0
  inert : ¬ P.reaction > -1

theorem source_atEase (c : Cfg) (P : Par) (rate : ℝ) (Q : St) (hv : c.viscous = true) (h : AtEase c P Q) (i : Nat) :
    source c P rate Q i = 0 := by
  rw [source_val c P rate Q hv]
  split_ifs with h1 h2 h3 h4
  · rw [h.force]; rfl
  · simp [dEdAs, h.strain]
  · simp [dEdJ, h.heat h3.1]
  · exact absurd h4.1 h.inert
  · rfl

theorem ofVec_atEase (c : Cfg) (P : Par) (Q : St) (hv : c.viscous = true) (h : AtEase c P Q) :
    AtEase c P (ofVec c fun v => Q v) := by
  have hm := mV_ge c hv
  have hV : c.mV ≤ c.V := by unfold Cfg.V; omega
  have e : ∀ k, k < c.V → ofVec c (fun v => Q v) k = Q k := fun k hk => by simp [ofVec, hk]
  refine ⟨?_, fun ht => ?_, h.force, h.inert⟩
  · rw [← h.strain]
    congr 1
    ext i j
    simp only [getA, Matrix.of_apply]
    exact e _ (by omega)
  · rw [← h.heat ht]
    have := mV_thermal c hv ht
    funext i
    exact e _ (by omega)

/-- **C16 for the equations of the code**, one dimension: a uniform state without strain, heat flux, body force and
reaction does not change under `ader_stepper`, stiff or not, whatever the inner linear solver and whatever the flux. -/
theorem ader1_equilibrium {T : Tab n} (h : T.Ok) (W : Weno.Setup n) (undef : ℝ) (c : Cfg) (hv : c.viscous = true)
    (P : Par) (rate : ℝ) (junk Q : St) (hQ : AtEase c P Q)
    (fl : Nat → (Fin c.V → ℝ) → (Fin c.V → ℝ) → (Fin c.V → ℝ)) (wt : Nat → ℝ) (dt dx tol : ℝ) (ht : 0 ≤ tol)
    (stiff : Bool) (DG_IT : Nat) (hit : 0 < DG_IT)
    (step : (Fin n → Fin c.V → ℝ) → (Nat → Fin c.V → ℝ) → (Nat → Fin c.V → ℝ))
    (hstep : ∀ w, IsStep1 T (gpr c P (source c P rate) junk) (initialCondition1 T (rows1 w)) dt dx (step w))
    (nm : Vec (n * n * c.V) → Ext) (hm : IsMaxNorm nm) (z : Ext → Bool) (fuel : Nat)
    (solve : σ → Vec (n * n * c.V) → Vec (n * n * c.V) → Ext → σ × Vec (n * n * c.V)) (jac : σ)
    (bad : Vec (n * n * c.V) → Vec (n * n * c.V)) (nx : Nat) (ub : Nat → Fin c.V → ℝ)
    (hub : ∀ r, r < nx + 2 * n → ub r = fun v : Fin c.V => Q v) (gar : Nat → Nat → Fin n → Fin c.V → ℝ) (u : Nat → Fin c.V → ℝ) :
    let S := gpr c P (source c P rate) junk
    apply (kern1 S T fl wt dx true).app
      (ader1 (realCoef W.T undef)
        (pred1 stiff DG_IT tol step (newton1 S T dt dx nm tol z fuel solve jac bad)) (kern1 S T fl wt dx true) ub nx
        (fun _ => true) gar) u = u := by
  refine ader1_uniform h W undef _ fl wt (fun v => Q v) ?_ ?_ dt dx tol ht stiff DG_IT hit step hstep _
    (newton1_root _ T dt dx nm hm tol z fuel solve jac bad) nx ub hub gar u
  · funext i
    exact source_atEase c P rate _ hv (ofVec_atEase c P Q hv hQ) i
  · exact gpr_bdot_zero c hv P _ junk 0 _

/-- **C16 for the equations of the code**, two dimensions. -/
theorem ader2_equilibrium {T : Tab n} (h : T.Ok) (W : Weno.Setup n) (undef : ℝ) (nc : Bool) (c : Cfg)
    (hv : c.viscous = true) (P : Par) (rate : ℝ) (junk Q : St) (hQ : AtEase c P Q)
    (fl : Nat → (Fin c.V → ℝ) → (Fin c.V → ℝ) → (Fin c.V → ℝ)) (wt : Nat → ℝ) (dt dx dy tol : ℝ) (ht : 0 ≤ tol)
    (stiff : Bool) (DG_IT : Nat) (hit : 0 < DG_IT)
    (step : (Fin n → Fin n → Fin c.V → ℝ) → (Nat → Fin c.V → ℝ) → (Nat → Fin c.V → ℝ))
    (hstep : ∀ w, IsStep2 T (gpr c P (source c P rate) junk) (initialCondition2 T (rows2 w)) dt dx dy (step w))
    (nm : Vec (n * (n * n) * c.V) → Ext) (hm : IsMaxNorm nm) (z : Ext → Bool) (fuel : Nat)
    (solve : σ → Vec (n * (n * n) * c.V) → Vec (n * (n * n) * c.V) → Ext → σ × Vec (n * (n * n) * c.V)) (jac : σ)
    (bad : Vec (n * (n * n) * c.V) → Vec (n * (n * n) * c.V)) (nx ny : Nat)
    (hwide : Weno.Wide n nc (nx + 2) (ny + 2)) (ub : Nat → Fin c.V → ℝ)
    (hub : ∀ r, r < (nx + 2 * n) * (ny + 2 * n) → ub r = fun v : Fin c.V => Q v) (gar : Nat → Nat → Nat → Fin c.V → ℝ)
    (u : Nat → Fin c.V → ℝ) :
    let S := gpr c P (source c P rate) junk
    apply (kern2 S T fl wt dx dy true).app
      (ader2 (realCoef W.T undef) nc
        (pred2 stiff DG_IT tol step (newton2 S T dt dx dy nm tol z fuel solve jac bad)) (kern2 S T fl wt dx dy true) ub nx ny
        (fun _ => true) gar) u = u := by
  refine ader2_uniform h W undef nc _ fl wt (fun v => Q v) ?_ ?_ dt dx dy tol ht stiff DG_IT hit step hstep _
    (newton2_root _ T dt dx dy nm hm tol z fuel solve jac bad) nx ny hwide ub hub gar u
  · funext i
    exact source_atEase c P rate _ hv (ofVec_atEase c P Q hv hQ) i
  · exact fun d => gpr_bdot_zero c hv P _ junk d _

/-- A moving unstrained state of the sample material. -/
example : AtEase (cfgOf false) { samplePar sample with δp := 0, reaction := -1 }
    (fun k => if k = 5 ∨ k = 9 ∨ k = 13 then 1 else if k = 0 ∨ k = 3 then 2 else 0) := by
  refine ⟨?_, by simp [cfgOf], rfl, by norm_num⟩
  have : getA (fun k => if k = 5 ∨ k = 9 ∨ k = 13 then (1 : ℝ) else if k = 0 ∨ k = 3 then 2 else 0) = 1 := by
    ext i j; fin_cases i <;> fin_cases j <;> simp [getA]
  rw [this]
  ext i j
  fin_cases i <;> fin_cases j <;> simp [AdevG] <;> norm_num

end

end Verif.Newton
