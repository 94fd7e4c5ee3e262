import Verif.Legendre.Quadrature
import Mathlib.Analysis.Matrix.Spectrum
import Mathlib.Data.Fin.Tuple.Sort

/-!
# The eigenvalues of the companion matrix are `n` distinct roots of `P n`
-/

namespace Verif.Legendre

open Polynomial

/-- Off-diagonal entry. -/
noncomputable def beta (i : Nat) : ℝ :=
  ((i : ℝ) + 1) * (1 / √(2 * (i : ℝ) + 1)) * (1 / √(2 * ((i + 1 : Nat) : ℝ) + 1))

theorem flat_eq {n a b c d : Nat} (hb : b < n) (hd : d < n) : a * n + b = c * n + d ↔ a = c ∧ b = d := by
  constructor
  · intro h
    have hn : 0 < n := by omega
    have h1 : (a * n + b) / n = (c * n + d) / n := by rw [h]
    have h2 : (a * n + b) % n = (c * n + d) % n := by rw [h]
    rw [Nat.mul_comm, Nat.mul_comm c, Nat.mul_add_div hn, Nat.mul_add_div hn, Nat.div_eq_of_lt hb,
      Nat.div_eq_of_lt hd] at h1
    rw [Nat.mul_comm, Nat.mul_comm c, Nat.mul_add_mod, Nat.mul_add_mod, Nat.mod_eq_of_lt hb,
      Nat.mod_eq_of_lt hd] at h2
    exact ⟨by omega, h2⟩
  · rintro ⟨rfl, rfl⟩; rfl

theorem companion_entry (n : Nat) (i j : Fin n) : legcompanion n i j =
    if (j : Nat) = i + 1 then beta i else if (i : Nat) = j + 1 then beta j else 0 := by
  have key : ∀ m, m ≤ n - 1 → ((List.range m).foldl (fun mt (i : Nat) =>
      Function.update (Function.update mt (1 + i * (n + 1)) (beta i)) (n + i * (n + 1)) (beta i))
      (fun _ => (0 : ℝ))) (i * n + j) =
      if (j : Nat) = i + 1 ∧ (i : Nat) < m then beta i
      else if (i : Nat) = j + 1 ∧ (j : Nat) < m then beta j else 0 := by
    intro m hm
    induction m with
    | zero => simp
    | succ m ih =>
      have ih := ih (by omega)
      rw [List.range_succ, List.foldl_append, List.foldl_cons, List.foldl_nil, Function.update_apply,
        Function.update_apply, ih,
        show n + m * (n + 1) = (m + 1) * n + m by ring, show 1 + m * (n + 1) = m * n + (m + 1) by ring]
      simp only [flat_eq j.2 (show m < n by omega), flat_eq j.2 (show m + 1 < n by omega)]
      have hi := i.2
      have hj := j.2
      by_cases h1 : (i : Nat) = m + 1 ∧ (j : Nat) = m
      · rw [if_pos h1, if_neg (by omega), if_pos (by omega), h1.2]
      · rw [if_neg h1]
        by_cases h2 : (i : Nat) = m ∧ (j : Nat) = m + 1
        · rw [if_pos h2, if_pos (by omega), h2.1]
        · rw [if_neg h2]
          congr 1
          · apply propext; omega
          · congr 1; apply propext; omega
  have := key (n - 1) le_rfl
  have hi := i.2
  have hj := j.2
  unfold legcompanion companionFlat
  unfold beta at this ⊢
  rw [this]
  congr 1
  · apply propext; omega
  · congr 1; apply propext; omega

theorem companion_hermitian (n : Nat) : (legcompanion n).IsHermitian := by
  ext i j
  rw [Matrix.conjTranspose_apply, companion_entry, companion_entry]
  simp only [star_trivial]
  split_ifs <;> first | rfl | omega

/-- An eigenvector is the vector of scaled Legendre values, up to a factor. -/
theorem eigenvector_form (n : Nat) (hn : 0 < n) (v : Fin n → ℝ) (x : ℝ)
    (hv : (legcompanion n).mulVec v = x • v) :
    (∀ i : Fin n, v i = v ⟨0, hn⟩ * (√(2 * ((i : Nat) : ℝ) + 1) * (P i).eval x)) ∧
      v ⟨0, hn⟩ * (P n).eval x = 0 := by
  set s : Nat → ℝ := fun i => √(2 * (i : ℝ) + 1) with hs
  have hs0 : ∀ i, 0 < s i := fun i => Real.sqrt_pos.2 (by positivity)
  have hss : ∀ i, s i * s i = 2 * (i : ℝ) + 1 := fun i => Real.mul_self_sqrt (by positivity)
  set u : Nat → ℝ := fun i => if h : i < n then v ⟨i, h⟩ / s i else 0 with hu
  have hb : ∀ i, beta i = ((i : ℝ) + 1) / (s i * s (i + 1)) := by
    intro i; unfold beta; rw [hs]; field_simp
  -- the rows of the eigenvalue equation
  have row : ∀ i, i + 1 < n + 1 → ((i : ℝ) + 1) * u (i + 1) + (i : ℝ) * u (i - 1) = (2 * (i : ℝ) + 1) * x * u i := by
    intro i hi
    have hin : i < n := by omega
    have hr := congrFun hv ⟨i, hin⟩
    rw [Matrix.mulVec, dotProduct] at hr
    have hsum : ∑ j : Fin n, legcompanion n ⟨i, hin⟩ j * v j =
        (if h : i + 1 < n then beta i * v ⟨i + 1, h⟩ else 0) +
          (if h : 0 < i then beta (i - 1) * v ⟨i - 1, by omega⟩ else 0) := by
      have hsplit : ∀ j : Fin n, legcompanion n ⟨i, hin⟩ j * v j =
          (if (j : Nat) = i + 1 then beta i * v j else 0) +
            (if i = (j : Nat) + 1 then beta j * v j else 0) := by
        intro j
        rw [companion_entry]
        by_cases h1 : (j : Nat) = i + 1
        · rw [if_pos h1, if_pos h1, if_neg (by omega), add_zero]
        · rw [if_neg h1, if_neg h1, zero_add]
          split_ifs <;> simp
      rw [Finset.sum_congr rfl fun j _ => hsplit j, Finset.sum_add_distrib]
      congr 1
      · by_cases h : i + 1 < n
        · rw [dif_pos h, Finset.sum_eq_single ⟨i + 1, h⟩]
          · rw [if_pos rfl]
          · intro j _ hj; rw [if_neg fun h' => hj (Fin.ext h')]
          · simp
        · rw [dif_neg h]
          refine Finset.sum_eq_zero fun j _ => if_neg ?_
          have := j.2; omega
      · by_cases h : 0 < i
        · rw [dif_pos h, Finset.sum_eq_single ⟨i - 1, by omega⟩]
          · rw [if_pos (by simp only []; omega)]
          · intro j _ hj; rw [if_neg fun h' => hj (Fin.ext (by simp only []; omega))]
          · simp
        · rw [dif_neg h]
          exact Finset.sum_eq_zero fun j _ => if_neg (by omega)
    rw [hsum] at hr
    have hui : v ⟨i, hin⟩ = s i * u i := by
      rw [hu]; simp only [dif_pos hin]; rw [mul_div_cancel₀ _ (hs0 i).ne']
    have t1 : (if h : i + 1 < n then beta i * v ⟨i + 1, h⟩ else 0) = ((i : ℝ) + 1) * u (i + 1) / s i := by
      by_cases h : i + 1 < n
      · rw [dif_pos h, hb]
        simp only [hu, dif_pos h]
        have := (hs0 i).ne'; have := (hs0 (i + 1)).ne'
        field_simp
      · rw [dif_neg h]; simp only [hu, dif_neg h]; ring
    have t2 : (if h : 0 < i then beta (i - 1) * v ⟨i - 1, by omega⟩ else 0) =
        (i : ℝ) * u (i - 1) / s i := by
      by_cases h : 0 < i
      · obtain ⟨k, rfl⟩ : ∃ k, i = k + 1 := ⟨i - 1, by omega⟩
        rw [dif_pos h, hb]
        simp only [Nat.add_sub_cancel, hu, dif_pos (show k < n by omega)]
        have := (hs0 k).ne'; have := (hs0 (k + 1)).ne'
        push_cast
        field_simp
      · have : i = 0 := by omega
        subst this; simp
    rw [t1, t2, Pi.smul_apply, smul_eq_mul, hui] at hr
    have := (hs0 i).ne'
    field_simp at hr
    have h2 := hss i
    linear_combination hr + (x * u i) * h2
  have main : ∀ i, i < n + 1 → u i = u 0 * (P i).eval x ∧
      (i + 1 < n + 1 → u (i + 1) = u 0 * (P (i + 1)).eval x) := by
    intro i
    induction i with
    | zero =>
      intro _
      refine ⟨by simp [P], fun h => ?_⟩
      have := row 0 (by omega)
      simp at this
      rw [this]; simp [P]; ring
    | succ i ih =>
      intro hi
      obtain ⟨h1, h2⟩ := ih (by omega)
      refine ⟨h2 hi, fun h => ?_⟩
      have hr := row (i + 1) (by omega)
      have hb := bonnet_eval (K := ℝ) i x
      rw [Nat.add_sub_cancel, h2 hi, h1] at hr
      have h0 : ((i : ℝ) + 2) ≠ 0 := by positivity
      apply mul_left_cancel₀ h0
      push_cast at hr
      linear_combination hr - u 0 * hb
  have hu0 : v ⟨0, hn⟩ = u 0 := by
    simp only [hu, dif_pos hn, hs]; simp
  constructor
  · intro i
    have h1 := (main i (by omega)).1
    have hui : v i = s i * u i := by
      simp only [hu, dif_pos i.2]; rw [mul_div_cancel₀ _ (hs0 i).ne']
    rw [hui, h1, hu0]; ring
  · have h1 := (main n (by omega)).1
    rw [hu0, ← h1]
    simp [hu]

/-- The eigenvalues of the companion matrix, in increasing order, are `n` distinct roots of `P n`. -/
theorem eigenvalues_roots (n : Nat) (hn : 0 < n) (x : Fin n → ℝ)
    (hx : IsEigenvalues (legcompanion n) x) : Roots x ∧ StrictMono x := by
  have hH := companion_hermitian n
  -- an eigenvector for each Mathlib eigenvalue
  have hev : ∀ k, (legcompanion n).mulVec (hH.eigenvectorBasis k).ofLp =
      hH.eigenvalues k • (hH.eigenvectorBasis k).ofLp := fun k => hH.mulVec_eigenvectorBasis k
  have h0 : ∀ k, (hH.eigenvectorBasis k).ofLp ⟨0, hn⟩ ≠ 0 := by
    intro k hk
    have hz : hH.eigenvectorBasis k = 0 := by
      ext i
      have := (eigenvector_form n hn _ _ (hev k)).1 i
      rw [this, hk]; simp
    have := hH.eigenvectorBasis.orthonormal.ne_zero k
    exact this hz
  have hroot : ∀ k, (P n).eval (hH.eigenvalues k) = 0 := fun k =>
    (mul_eq_zero.1 (eigenvector_form n hn _ _ (hev k)).2).resolve_left (h0 k)
  have hinj : Function.Injective hH.eigenvalues := by
    intro a b hab
    by_contra hne
    have hli := hH.eigenvectorBasis.orthonormal.linearIndependent
    have ha := (eigenvector_form n hn _ _ (hev a)).1
    have hb := (eigenvector_form n hn _ _ (hev b)).1
    rw [hab] at ha
    have hrel : (hH.eigenvectorBasis b).ofLp ⟨0, hn⟩ • hH.eigenvectorBasis a =
        (hH.eigenvectorBasis a).ofLp ⟨0, hn⟩ • hH.eigenvectorBasis b := by
      ext i
      have h1 := ha i
      have h2 := hb i
      simp only [PiLp.smul_apply, smul_eq_mul]
      rw [h1, h2]; ring
    have h3 := hH.eigenvectorBasis.orthonormal.2 hne
    have h4 := congrArg (fun w => inner ℝ w (hH.eigenvectorBasis b)) hrel
    simp only [inner_smul_left] at h4
    rw [h3, real_inner_self_eq_norm_sq, hH.eigenvectorBasis.orthonormal.1 b] at h4
    simp at h4
    exact h0 a h4.symm
  -- same multiset of roots
  have hcp : ∏ i, (X - C (x i)) = ∏ i, (X - C (hH.eigenvalues i)) := by
    rw [← hx.2, hH.charpoly_eq]; rfl
  have hms : Finset.univ.val.map x = Finset.univ.val.map hH.eigenvalues := by
    have hr : ∀ y : Fin n → ℝ, (∏ i, (X - C (y i))).roots = Finset.univ.val.map y := by
      intro y
      rw [← roots_multiset_prod_X_sub_C (Finset.univ.val.map y), Multiset.map_map]; rfl
    have := congrArg roots hcp
    rwa [hr, hr] at this
  have hxinj : Function.Injective x := by
    have hnd : (Finset.univ.val.map x).Nodup := by
      rw [hms]; exact (Finset.univ.nodup).map hinj
    intro a b hab
    exact Multiset.inj_on_of_nodup_map hnd a (Finset.mem_univ a) b (Finset.mem_univ b) hab
  refine ⟨⟨hn, hxinj, fun k => ?_⟩, hx.1.strictMono_of_injective hxinj⟩
  have hk : x k ∈ Finset.univ.val.map hH.eigenvalues := by
    rw [← hms]; exact Multiset.mem_map_of_mem x (Finset.mem_univ k)
  obtain ⟨j, _, hj⟩ := Multiset.mem_map.1 hk
  rw [← hj]; exact hroot j

/-- Such eigenvalues exist, for every `n`. -/
theorem eigenvalues_exist (n : Nat) : ∃ x, IsEigenvalues (legcompanion n) x := by
  have hH := companion_hermitian n
  refine ⟨hH.eigenvalues ∘ Tuple.sort hH.eigenvalues, Tuple.monotone_sort _, ?_⟩
  rw [hH.charpoly_eq]
  exact (Equiv.prod_comp (Tuple.sort hH.eigenvalues) fun i => X - C (hH.eigenvalues i)).symm

end Verif.Legendre
