import Verif.Step.Real
import Verif.Sys.Flux
import Mathlib.Analysis.Calculus.Deriv.Polynomial

/-!
# The half step of the split scheme

`src/solvers/split/homogeneous.cpp`.  The derivatives are taken before any row is written, and a row is read by `Bdot`
only before it is written itself, so the rows of the result are given independently of each other.
Cells outside the mask keep their reconstruction (homogeneous.cpp:17 and 41); that test is in `split1` and `split2`.
-/

namespace Verif.Step

open Verif.Fv Verif.Dg Verif.Basis Polynomial

variable {n : Nat} {ι : Type} {T : Tab n} {S : Sys ι}

/-- `midstepper` on the block of one active cell, one dimension, homogeneous.cpp:12-34. -/
noncomputable def mid1 (S : Sys ι) (T : Tab n) (dt dx : ℝ) (w : Fin n → ι → ℝ) : Fin n → ι → ℝ := fun a v =>
  let F := fun b : Fin n => S.flux 0 (w b)
  let dwdx : Fin n → ι → ℝ := fun b v => ∑ k, T.dervals b k * w k v
  let dFdx : Fin n → ι → ℝ := fun b v => ∑ k, T.dervals b k * F k v
  w a v - dt / 2 * (dFdx a v + S.bdot 0 (w a) (dwdx a) v) / dx

/-- The same, two dimensions, homogeneous.cpp:35-66; row `i*N + j` of the block is `w i j`. -/
noncomputable def mid2 (S : Sys ι) (T : Tab n) (dt dx dy : ℝ) (w : Fin n → Fin n → ι → ℝ) : Fin n → Fin n → ι → ℝ :=
  fun i j v =>
  let F := fun s : Nat => S.flux 0 (rows2 w s)
  let G := fun s : Nat => S.flux 1 (rows2 w s)
  let der := fun (q : Nat → ι → ℝ) (d : Nat) (v : ι) => derivs2d T.dervals (fun _ => 0) (fun s => q s v) d (i * n + j)
  w i j v - dt / 2 * ((der F 0 v + S.bdot 0 (w i j) (der (rows2 w) 0) v) / dx +
    (der G 1 v + S.bdot 1 (w i j) (der (rows2 w) 1) v) / dy)

theorem rows2_get (w : Fin n → Fin n → ι → ℝ) (i j : Fin n) : rows2 w (i * n + j) = w i j := by
  have hn : 0 < n := i.pos
  have e1 : ((i : Nat) * n + j) / n = i := by
    rw [Nat.mul_comm, Nat.mul_add_div hn, Nat.div_eq_of_lt j.2, Nat.add_zero]
  have e2 : ((i : Nat) * n + j) % n = j := by
    rw [Nat.mul_comm, Nat.mul_add_mod, Nat.mod_eq_of_lt j.2]
  funext v
  unfold rows2
  rw [dif_pos (by rw [e1, e2]; exact ⟨i.2, j.2⟩)]
  congr

/-! ### Constants -/

/-- A constant block stays. -/
theorem mid1_const (h : T.Ok) (c : ι → ℝ) (hb : S.bdot 0 c 0 = 0) (dt dx : ℝ) :
    mid1 S T dt dx (fun _ => c) = fun _ => c := by
  funext a v
  unfold mid1
  have hb' : S.bdot 0 c (fun _ => 0) v = 0 := congrFun hb v
  simp only [← Finset.sum_mul, dervals_const h, zero_mul, hb']
  simp

theorem mid2_const (h : T.Ok) (c : ι → ℝ) (hb : ∀ d, S.bdot d c 0 = 0) (dt dx dy : ℝ) :
    mid2 S T dt dx dy (fun _ _ => c) = fun _ _ => c := by
  have hn := h.pos
  have hw : ∀ s, s < n * n → rows2 (fun _ _ : Fin n => c) s = c := fun s hs => by
    have h1 : s / n < n := (Nat.div_lt_iff_lt_mul hn).mpr hs
    have h2 : s % n < n := Nat.mod_lt _ hn
    funext v; simp [rows2, h1, h2]
  funext i j v
  unfold mid2
  have e0 := derivs_const h 0 (Or.inl rfl) c (rows2 fun _ _ => c) hw i j
  have e1 := derivs_const h 1 (Or.inr rfl) c (rows2 fun _ _ => c) hw i j
  have f0 := derivs_const h 0 (Or.inl rfl) (S.flux 0 c) (fun s => S.flux 0 (rows2 (fun _ _ => c) s))
    (fun s hs => by rw [hw s hs]) i j
  have f1 := derivs_const h 1 (Or.inr rfl) (S.flux 1 c) (fun s => S.flux 1 (rows2 (fun _ _ => c) s))
    (fun s hs => by rw [hw s hs]) i j
  simp only [e0, e1, hb, congrFun f0 v, congrFun f1 v]
  simp

/-! ### The rate -/

/-- The nodes of the cell of size `dx` at `x0`. -/
def at1 (T : Tab n) (x0 dx : ℝ) (i : Fin n) : ℝ := x0 + dx * T.nodes i

theorem poly_deriv (p : ℝ[X]) (x0 dx x d : ℝ) (f : ℝ → ℝ)
    (hf : ∀ y, f y = p.eval ((y - x0) / dx)) (hd : HasDerivAt f d x) : d = (derivative p).eval ((x - x0) / dx) / dx := by
  have h1 : HasDerivAt (fun y : ℝ => (y - x0) / dx) (1 / dx) x := ((hasDerivAt_id x).sub_const x0).div_const dx
  have h2 : HasDerivAt (fun y : ℝ => p.eval ((y - x0) / dx)) ((derivative p).eval ((x - x0) / dx) * (1 / dx)) x :=
    (p.hasDerivAt _).comp x h1
  rw [show f = _ from funext hf] at hd
  rw [hd.unique h2]
  ring

theorem first_order (m u : ℝ → ℝ) (a d : ℝ) (hm : ∀ τ, m τ = a + 2 * τ / 2 * d) (hu : HasDerivAt u d 0) :
    HasDerivAt (fun τ => m τ - u τ) 0 0 := by
  have h : HasDerivAt m d 0 := by
    rw [show m = fun τ => a + τ * d from funext fun τ => by rw [hm]; ring]
    simpa using ((hasDerivAt_id (0 : ℝ)).mul_const d).const_add a
  have h2 := h.sub hu
  rw [sub_self] at h2
  exact h2

/-- **The half step follows the equations without sources**, one dimension: if the reconstruction and its flux are
polynomials on the cell and `u` obeys `∂u/∂t + ∂F(u)/∂x + B(u) ∂u/∂x = 0` at the nodes, `midstepper` returns the value plus
`dt / 2` times the time derivative, so it differs from `u` at time `dt / 2` by less than first order. -/
theorem mid1_rate (h : T.Ok) (u : ℝ → ℝ → ι → ℝ) (x0 dx dt : ℝ) (hx : dx ≠ 0) (p f : ι → ℝ[X])
    (hp : ∀ v, (p v).degree < (n : WithBot ℕ)) (hf : ∀ v, (f v).degree < (n : WithBot ℕ))
    (hu : ∀ x v, u x 0 v = (p v).eval ((x - x0) / dx)) (hF : ∀ x v, S.flux 0 (u x 0) v = (f v).eval ((x - x0) / dx))
    (hlin : ∀ q y (a : ℝ), S.bdot 0 q (fun v => a * y v) = fun v => a * S.bdot 0 q y v) (i : Fin n) (ut ux Fx : ι → ℝ)
    (hut : ∀ v, HasDerivAt (fun t => u (at1 T x0 dx i) t v) (ut v) 0)
    (hux : ∀ v, HasDerivAt (fun x => u x 0 v) (ux v) (at1 T x0 dx i))
    (hFx : ∀ v, HasDerivAt (fun x => S.flux 0 (u x 0) v) (Fx v) (at1 T x0 dx i))
    (pde : ∀ v, ut v + Fx v + S.bdot 0 (u (at1 T x0 dx i) 0) ux v = 0) (v : ι) :
    mid1 S T dt dx (fun k => u (at1 T x0 dx k) 0) i v = u (at1 T x0 dx i) 0 v + dt / 2 * ut v ∧
    HasDerivAt (fun τ => mid1 S T (2 * τ) dx (fun k => u (at1 T x0 dx k) 0) i v - u (at1 T x0 dx i) τ v) 0 0 := by
  suffices key : ∀ dt, mid1 S T dt dx (fun k => u (at1 T x0 dx k) 0) i v = u (at1 T x0 dx i) 0 v + dt / 2 * ut v from
    ⟨key dt, first_order _ _ _ _ (fun τ => key (2 * τ)) (hut v)⟩
  intro dt
  have en : ∀ k, (at1 T x0 dx k - x0) / dx = T.nodes k := fun k => by unfold at1; field_simp; ring
  have d1 : ∀ v, ∑ k, T.dervals i k * u (at1 T x0 dx k) 0 v = dx * ux v := fun v => by
    simp only [hu, en]
    rw [dervals_mulVec h _ (hp v), poly_deriv (p v) x0 dx _ _ _ (fun y => hu y v) (hux v), en]
    field_simp
  have d2 : ∑ k, T.dervals i k * S.flux 0 (u (at1 T x0 dx k) 0) v = dx * Fx v := by
    simp only [hF, en]
    rw [dervals_mulVec h _ (hf v), poly_deriv (f v) x0 dx _ _ _ (fun y => hF y v) (hFx v), en]
    field_simp
  unfold mid1
  simp only [d1, d2, hlin]
  have := pde v
  field_simp
  linear_combination (dt / 2) * this * (-2)

/-- **The half step follows the equations without sources**, two dimensions; `p j` and `f j` are the profiles along x
at the y node `j`, `r i` and `g i` those along y at the x node `i`. -/
theorem mid2_rate (h : T.Ok) (u : ℝ → ℝ → ℝ → ι → ℝ) (x0 y0 dx dy dt : ℝ) (hx : dx ≠ 0) (hy : dy ≠ 0)
    (p f r g : Fin n → ι → ℝ[X]) (hp : ∀ j v, (p j v).degree < (n : WithBot ℕ)) (hf : ∀ j v, (f j v).degree < (n : WithBot ℕ))
    (hr : ∀ i v, (r i v).degree < (n : WithBot ℕ)) (hg : ∀ i v, (g i v).degree < (n : WithBot ℕ))
    (hux : ∀ x j v, u x (at1 T y0 dy j) 0 v = (p j v).eval ((x - x0) / dx))
    (hFx : ∀ x j v, S.flux 0 (u x (at1 T y0 dy j) 0) v = (f j v).eval ((x - x0) / dx))
    (huy : ∀ i y v, u (at1 T x0 dx i) y 0 v = (r i v).eval ((y - y0) / dy))
    (hGy : ∀ i y v, S.flux 1 (u (at1 T x0 dx i) y 0) v = (g i v).eval ((y - y0) / dy))
    (hlin : ∀ d q y (a : ℝ), S.bdot d q (fun v => a * y v) = fun v => a * S.bdot d q y v) (i j : Fin n)
    (ut ux uy Fx Gy : ι → ℝ) (hut : ∀ v, HasDerivAt (fun t => u (at1 T x0 dx i) (at1 T y0 dy j) t v) (ut v) 0)
    (dux : ∀ v, HasDerivAt (fun x => u x (at1 T y0 dy j) 0 v) (ux v) (at1 T x0 dx i))
    (duy : ∀ v, HasDerivAt (fun y => u (at1 T x0 dx i) y 0 v) (uy v) (at1 T y0 dy j))
    (dFx : ∀ v, HasDerivAt (fun x => S.flux 0 (u x (at1 T y0 dy j) 0) v) (Fx v) (at1 T x0 dx i))
    (dGy : ∀ v, HasDerivAt (fun y => S.flux 1 (u (at1 T x0 dx i) y 0) v) (Gy v) (at1 T y0 dy j))
    (pde : ∀ v, ut v + Fx v + Gy v + S.bdot 0 (u (at1 T x0 dx i) (at1 T y0 dy j) 0) ux v +
      S.bdot 1 (u (at1 T x0 dx i) (at1 T y0 dy j) 0) uy v = 0) (v : ι) :
    mid2 S T dt dx dy (fun k l => u (at1 T x0 dx k) (at1 T y0 dy l) 0) i j v =
      u (at1 T x0 dx i) (at1 T y0 dy j) 0 v + dt / 2 * ut v ∧
    HasDerivAt (fun τ => mid2 S T (2 * τ) dx dy (fun k l => u (at1 T x0 dx k) (at1 T y0 dy l) 0) i j v -
      u (at1 T x0 dx i) (at1 T y0 dy j) τ v) 0 0 := by
  suffices key : ∀ dt, mid2 S T dt dx dy (fun k l => u (at1 T x0 dx k) (at1 T y0 dy l) 0) i j v =
      u (at1 T x0 dx i) (at1 T y0 dy j) 0 v + dt / 2 * ut v from
    ⟨key dt, first_order _ _ _ _ (fun τ => key (2 * τ)) (hut v)⟩
  intro dt
  have en : ∀ k, (at1 T x0 dx k - x0) / dx = T.nodes k := fun k => by unfold at1; field_simp; ring
  have em : ∀ k, (at1 T y0 dy k - y0) / dy = T.nodes k := fun k => by unfold at1; field_simp; ring
  set w : Fin n → Fin n → ι → ℝ := fun k l => u (at1 T x0 dx k) (at1 T y0 dy l) 0 with hw
  have q := fun v => tables_2d_exact T.nodes h.inj T.psi h.basis T.dervals h.dervals (fun j => p j v) (fun i => r i v)
    (fun j => hp j v) (fun i => hr i v) (fun s => rows2 w s v) (fun _ => 0) fun k l => by
      simp only [rows2_get, hw]
      refine ⟨?_, ?_⟩
      · rw [hux, en]
      · rw [huy, em]
  have hfp := fun v (k l : Fin n) => (show S.flux 0 (rows2 w (k * n + l)) v = (f l v).eval (T.nodes k) by
    rw [rows2_get, hw]; simp only; rw [hFx, en])
  have hgp := fun v (k l : Fin n) => (show S.flux 1 (rows2 w (k * n + l)) v = (g k v).eval (T.nodes l) by
    rw [rows2_get, hw]; simp only; rw [hGy, em])
  -- the flux in one direction is a polynomial along that direction only; along the other take any interpolant
  have qf : derivs2d T.dervals (fun _ => 0) (fun s => S.flux 0 (rows2 w s) v) 0 (i * n + j) =
      (derivative (f j v)).eval (T.nodes i) := by
    choose fy hfy hfy' using fun k : Fin n => exists_poly h fun l => S.flux 0 (rows2 w (k * n + l)) v
    exact (tables_2d_exact T.nodes h.inj T.psi h.basis T.dervals h.dervals (fun j => f j v) fy (fun j => hf j v) hfy
      (fun s => S.flux 0 (rows2 w s) v) (fun _ => 0) fun k l => ⟨hfp v k l, (hfy' k l).symm⟩).1 i j
  have qg : derivs2d T.dervals (fun _ => 0) (fun s => S.flux 1 (rows2 w s) v) 1 (i * n + j) =
      (derivative (g i v)).eval (T.nodes j) := by
    choose fx hfx hfx' using fun l : Fin n => exists_poly h fun k => S.flux 1 (rows2 w (k * n + l)) v
    exact (tables_2d_exact T.nodes h.inj T.psi h.basis T.dervals h.dervals fx (fun i => g i v) hfx (fun j => hg j v)
      (fun s => S.flux 1 (rows2 w s) v) (fun _ => 0) fun k l => ⟨(hfx' l k).symm, hgp v k l⟩).2.1 i j
  have e0 : (fun v => derivs2d T.dervals (fun _ => 0) (fun s => rows2 w s v) 0 (i * n + j)) = fun v => dx * ux v := by
    funext v
    rw [(q v).1 i j, poly_deriv (p j v) x0 dx _ _ _ (fun y => hux y j v) (dux v), en]
    field_simp
  have e1 : (fun v => derivs2d T.dervals (fun _ => 0) (fun s => rows2 w s v) 1 (i * n + j)) = fun v => dy * uy v := by
    funext v
    rw [(q v).2.1 i j, poly_deriv (r i v) y0 dy _ _ _ (fun y => huy i y v) (duy v), em]
    field_simp
  have e2 : (derivative (f j v)).eval (T.nodes i) = dx * Fx v := by
    rw [poly_deriv (f j v) x0 dx _ _ _ (fun y => hFx y j v) (dFx v), en]
    field_simp
  have e3 : (derivative (g i v)).eval (T.nodes j) = dy * Gy v := by
    rw [poly_deriv (g i v) y0 dy _ _ _ (fun y => hGy i y v) (dGy v), em]
    field_simp
  unfold mid2
  simp only [e0, e1, hlin, qf, qg, e2, e3]
  have := pde v
  rw [show (dx * Fx v + dx * S.bdot 0 (w i j) ux v) / dx = Fx v + S.bdot 0 (w i j) ux v by field_simp,
    show (dy * Gy v + dy * S.bdot 1 (w i j) uy v) / dy = Gy v + S.bdot 1 (w i j) uy v by field_simp]
  linear_combination (-dt / 2) * this

/-! ### Means -/

/-- The mean of a component without nonconservative part changes by the difference of the interpolated fluxes at the two
ends, over half the time step. -/
theorem mid1_mean (h : T.Ok) (dt dx : ℝ) (w : Fin n → ι → ℝ) (v : ι) (hB : ∀ q x, S.bdot 0 q x v = 0) (f : ℝ[X])
    (hf : f.degree < (n : WithBot ℕ)) (hfw : ∀ k, S.flux 0 (w k) v = f.eval (T.nodes k)) :
    ∑ i, T.w i * mid1 S T dt dx w i v = ∑ i, T.w i * w i v - dt / (2 * dx) * (f.eval 1 - f.eval 0) := by
  have e : ∀ i, mid1 S T dt dx w i v = w i v - dt / (2 * dx) * (derivative f).eval (T.nodes i) := by
    intro i
    unfold mid1
    simp only [hfw, hB]
    rw [dervals_mulVec h f hf i]
    ring
  have hq := h.exact (derivative f) (by
    refine lt_of_lt_of_le (degree_deriv_lt hf) ?_
    exact_mod_cast (by omega : n ≤ 2 * n))
  have hint : ∫ t in (0 : ℝ)..1, (derivative f).eval t = f.eval 1 - f.eval 0 :=
    intervalIntegral.integral_eq_sub_of_hasDerivAt (fun x _ => f.hasDerivAt x)
      ((derivative f).continuous.intervalIntegrable _ _)
  rw [← hint, ← hq, Finset.mul_sum, ← Finset.sum_sub_distrib]
  refine Finset.sum_congr rfl fun i _ => ?_
  rw [e]
  ring

/-! ### Advection -/

/-- A linear profile carried by a constant speed is moved exactly. -/
theorem mid1_advects (h : T.Ok) (a dt dx : ℝ) (c s : ι → ℝ) (hn : 1 < n) (hF : ∀ q, S.flux 0 q = fun v => a * q v)
    (hB : ∀ q x, S.bdot 0 q x = 0) (i : Fin n) (v : ι) :
    mid1 S T dt dx (fun k v => c v + s v * T.nodes k) i v = c v + s v * (T.nodes i - a * (dt / 2) / dx) := by
  have hp : (C (a * c v) + C (a * s v) * X : ℝ[X]).degree < (n : WithBot ℕ) := by
    refine lt_of_le_of_lt (degree_add_le _ _) (max_lt (degree_one_lt h.pos _) ?_)
    refine lt_of_le_of_lt (degree_C_mul_X_le _) ?_
    exact_mod_cast hn
  have e : ∀ k, a * (c v + s v * T.nodes k) = (C (a * c v) + C (a * s v) * X : ℝ[X]).eval (T.nodes k) := fun k => by
    simp; ring
  unfold mid1
  simp only [hF, hB, e]
  rw [dervals_mulVec h _ hp]
  simp
  ring

/-! ### The equations of the code -/

theorem gpr_bdot_smul (c : Sys.Cfg) (hv : c.viscous = true) (P : Sys.Par) (src : Sys.St → Sys.St) (junk : Sys.St)
    (d : Nat) (q y : Fin c.V → ℝ) (a : ℝ) :
    (Sys.gpr c P src junk).bdot d q (fun v => a * y v) = fun v => a * (Sys.gpr c P src junk).bdot d q y v := by
  funext v
  have e : Sys.ofVec c (fun v => a * y v) = fun k => a * Sys.ofVec c y k + 0 * (0 : ℝ) := by
    funext k
    unfold Sys.ofVec
    split_ifs <;> ring
  change Sys.bdot c (Sys.ofVec c q) (Sys.ofVec c fun v => a * y v) _ junk v = a * Sys.bdot c (Sys.ofVec c q) (Sys.ofVec c y) _ junk v
  rw [e, Sys.bdot_linear c hv (Sys.ofVec c q) (Sys.ofVec c y) (fun _ => 0) a 0 _ junk junk junk v v.2]
  ring

/-- The half step of the code on a constant state of any material. -/
example (h : T.Ok) (c : Sys.Cfg) (hv : c.viscous = true) (P : Sys.Par) (src : Sys.St → Sys.St) (junk : Sys.St)
    (q : Fin c.V → ℝ) (dt dx dy : ℝ) : mid1 (Sys.gpr c P src junk) T dt dx (fun _ => q) = (fun _ => q) ∧
    mid2 (Sys.gpr c P src junk) T dt dx dy (fun _ _ => q) = fun _ _ => q :=
  ⟨mid1_const h q (Sys.gpr_bdot_zero c hv P src junk 0 q) dt dx,
   mid2_const h q (fun d => Sys.gpr_bdot_zero c hv P src junk d q) dt dx dy⟩

/-- A case of `mid1_rate`: the profile `x` carried by the speed `2`, starting in the cell from `3` to `7/2`. -/
example {T : Tab 2} (h : T.Ok) (i : Fin 2) (dt : ℝ) : mid1 ⟨fun _ q v => 2 * q v, fun _ => 0, fun _ _ _ => 0⟩ T dt (1 / 2)
    (fun k (_ : Unit) => at1 T 3 (1 / 2) k) i () = at1 T 3 (1 / 2) i + dt / 2 * (-2) := by
  have hX : ∀ a b : ℝ, (C a + C b * X : ℝ[X]).degree < ((2 : Nat) : WithBot ℕ) := fun a b =>
    lt_of_le_of_lt (degree_add_le _ _) (max_lt (degree_one_lt (by norm_num) _)
      (lt_of_le_of_lt (degree_C_mul_X_le _) (by exact_mod_cast (by norm_num : 1 < 2))))
  have := (mid1_rate h (S := ⟨fun _ q v => 2 * q v, fun _ => 0, fun _ _ _ => 0⟩) (fun x t (_ : Unit) => x - 2 * t) 3 (1 / 2) dt
    (by norm_num) (fun _ => C 3 + C (1 / 2) * X) (fun _ => C 6 + C 1 * X) (fun _ => hX _ _) (fun _ => hX _ _)
    (fun x _ => by simp; ring) (fun x _ => by simp; ring) (fun _ _ _ => by funext; simp) i (fun _ => -2) (fun _ => 1)
    (fun _ => 2) (fun _ => ?_) (fun _ => ?_) (fun _ => ?_) (fun _ => by simp) ()).1
  · simpa only [mul_zero, sub_zero] using this
  · simpa using ((hasDerivAt_id (0 : ℝ)).const_mul 2).const_sub (at1 T 3 (1 / 2) i)
  · simpa only [mul_zero, sub_zero] using hasDerivAt_id' (at1 T 3 (1 / 2) i)
  · simpa using (hasDerivAt_id (at1 T 3 (1 / 2) i)).const_mul 2

end Verif.Step
