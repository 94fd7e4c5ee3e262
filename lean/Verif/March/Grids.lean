import Verif.March.Spec
import Mathlib.Algebra.BigOperators.Group.List.Basic
import Mathlib.Algebra.Order.Group.Nat
import Mathlib.Tactic.Linarith

/-! The address arithmetic of the code satisfies the grid assumptions in one and two dimensions. -/

namespace Verif.March

theorem nb1 (n i : Nat) (dir : Bool) : (gridOf [n]).nb i 0 dir =
    if dir then if i + 1 ≥ n then none else some (i + 1)
    else if i = 0 ∨ i - 1 ≥ n then none else some (i - 1) := by
  simp [gridOf, nbAddr, setIndex, shift]

theorem nb2_0 (n m i : Nat) (dir : Bool) : (gridOf [n, m]).nb i 0 dir =
    if dir then if i / m + 1 ≥ n then none else some (i + m)
    else if i / m = 0 ∨ i / m - 1 ≥ n then none else some (i - m) := by
  simp [gridOf, nbAddr, setIndex, shift]

theorem nb2_1 (n m i : Nat) (dir : Bool) : (gridOf [n, m]).nb i 1 dir =
    if dir then if i % m + 1 ≥ m then none else some (i + 1)
    else if i % m = 0 ∨ i % m - 1 ≥ m then none else some (i - 1) := by
  have : i - i / m * m = i % m := by
    have := Nat.div_add_mod i m; rw [Nat.mul_comm] at this; omega
  simp [gridOf, nbAddr, setIndex, shift, this]

theorem wf1 (n : Nat) : (gridOf [n]).WF where
  lt := by
    intro i d dir a hi hd h
    have hd0 : d = 0 := by simp [gridOf] at hd; exact hd
    subst hd0
    rw [nb1] at h
    simp only [gridOf, List.prod_cons, List.prod_nil, mul_one] at hi ⊢
    cases dir
    · simp only [Bool.false_eq_true, if_false] at h
      split at h
      · cases h
      · cases h; omega
    · simp only [if_true] at h
      split at h
      · cases h
      · cases h; omega
  symm := by
    intro i d dir a hi hd h
    have hd0 : d = 0 := by simp [gridOf] at hd; exact hd
    subst hd0
    rw [nb1] at h ⊢
    simp only [gridOf, List.prod_cons, List.prod_nil, mul_one] at hi
    cases dir
    · simp only [Bool.false_eq_true, if_false] at h
      split at h
      · cases h
      · rename_i hc
        cases h
        simp only [Bool.not_false, if_true]
        rw [if_neg (by omega)]
        congr 1; omega
    · simp only [if_true] at h
      split at h
      · cases h
      · cases h
        simp only [Bool.not_true, Bool.false_eq_true, if_false]
        rw [if_neg (by omega)]
        simp

theorem div_mod_succ {m i : Nat} (h : i % m + 1 < m) : (i + 1) / m = i / m ∧ (i + 1) % m = i % m + 1 := by
  have hm : 0 < m := by omega
  have e := Nat.div_add_mod i m
  have : i + 1 = (i % m + 1) + m * (i / m) := by omega
  constructor
  · rw [this, Nat.add_mul_div_left _ _ hm, Nat.div_eq_of_lt h, Nat.zero_add]
  · rw [this, Nat.add_mul_mod_self_left, Nat.mod_eq_of_lt h]

theorem div_mod_pred {m i : Nat} (hm : 0 < m) (h : i % m ≠ 0) :
    (i - 1) / m = i / m ∧ (i - 1) % m = i % m - 1 ∧ 0 < i := by
  have e := Nat.div_add_mod i m
  have hlt := Nat.mod_lt i hm
  have : i - 1 = (i % m - 1) + m * (i / m) := by omega
  refine ⟨?_, ?_, by rcases Nat.eq_zero_or_pos i with h' | h'; subst h'; simp at h; exact h'⟩
  · rw [this, Nat.add_mul_div_left _ _ hm, Nat.div_eq_of_lt (by omega), Nat.zero_add]
  · rw [this, Nat.add_mul_mod_self_left, Nat.mod_eq_of_lt (by omega)]

theorem wf2 (n m : Nat) : (gridOf [n, m]).WF where
  lt := by
    intro i d dir a hi hd h
    have hd0 : d = 0 ∨ d = 1 := by simp [gridOf] at hd; omega
    simp only [gridOf, List.prod_cons, List.prod_nil, mul_one] at hi ⊢
    have hm : 0 < m := by
      rcases Nat.eq_zero_or_pos m with h' | h'
      · subst h'; simp at hi
      · exact h'
    have hq : i / m < n := Nat.div_lt_of_lt_mul (by rw [mul_comm]; exact hi)
    rcases hd0 with rfl | rfl
    · rw [nb2_0] at h
      cases dir
      · simp only [Bool.false_eq_true, if_false] at h
        split at h
        · cases h
        · cases h; omega
      · simp only [if_true] at h
        split at h
        · cases h
        · rename_i hc
          cases h
          have h1 : i / m + 2 ≤ n := by omega
          have h2 : (i / m + 2) * m ≤ n * m := Nat.mul_le_mul_right m h1
          have h3 := Nat.div_add_mod i m
          have h4 := Nat.mod_lt i hm
          have h5 : (i / m + 2) * m = m * (i / m) + 2 * m := by ring
          omega
    · rw [nb2_1] at h
      cases dir
      · simp only [Bool.false_eq_true, if_false] at h
        split at h
        · cases h
        · cases h; omega
      · simp only [if_true] at h
        split at h
        · cases h
        · rename_i hc
          cases h
          have h1 : i / m + 1 ≤ n := by omega
          have h2 : (i / m + 1) * m ≤ n * m := Nat.mul_le_mul_right m h1
          have h3 := Nat.div_add_mod i m
          have h5 : (i / m + 1) * m = m * (i / m) + m := by ring
          omega
  symm := by
    intro i d dir a hi hd h
    have hd0 : d = 0 ∨ d = 1 := by simp [gridOf] at hd; omega
    simp only [gridOf, List.prod_cons, List.prod_nil, mul_one] at hi
    have hm : 0 < m := by
      rcases Nat.eq_zero_or_pos m with h' | h'
      · subst h'; simp at hi
      · exact h'
    have hq : i / m < n := Nat.div_lt_of_lt_mul (by rw [mul_comm]; exact hi)
    rcases hd0 with rfl | rfl
    · rw [nb2_0] at h ⊢
      cases dir
      · simp only [Bool.false_eq_true, if_false] at h
        split at h
        · cases h
        · rename_i hc
          cases h
          have hge : m ≤ i := by
            by_contra hh
            exact hc (.inl (Nat.div_eq_of_lt (by omega)))
          have h1 : (i - m) / m = i / m - 1 := Nat.sub_mul_div i m 1 |> fun h => by simpa using h
          simp only [Bool.not_false, if_true]
          rw [if_neg (by rw [h1]; generalize i / m = k at *; omega)]
          congr 1; omega
      · simp only [if_true] at h
        split at h
        · cases h
        · rename_i hc
          cases h
          have h1 : (i + m) / m = i / m + 1 := Nat.add_div_right i hm
          simp only [Bool.not_true, Bool.false_eq_true, if_false]
          rw [if_neg (by rw [h1]; generalize i / m = k at *; omega)]
          simp
    · rw [nb2_1] at h ⊢
      cases dir
      · simp only [Bool.false_eq_true, if_false] at h
        split at h
        · cases h
        · rename_i hc
          cases h
          obtain ⟨h1, h2, h3⟩ := div_mod_pred hm (show i % m ≠ 0 by omega)
          have h4 := Nat.mod_lt i hm
          simp only [Bool.not_false, if_true]
          rw [if_neg (by rw [h2]; omega)]
          congr 1; omega
      · simp only [if_true] at h
        split at h
        · cases h
        · rename_i hc
          cases h
          obtain ⟨h1, h2⟩ := div_mod_succ (show i % m + 1 < m by omega)
          simp only [Bool.not_true, Bool.false_eq_true, if_false]
          rw [if_neg (by rw [h2]; omega)]
          simp

theorem Grid.Conn.trans {G : Grid} {i j k : Nat} (h : G.Conn i j) (h' : G.Conn j k) :
    G.Conn i k := by
  induction h' with
  | refl => exact h
  | step _ hd hn ih => exact .step ih hd hn

theorem Grid.Conn.lt {G : Grid} (wf : G.WF) {i j : Nat} (hi : i < G.size) (h : G.Conn i j) :
    j < G.size := by
  induction h with
  | refl => exact hi
  | step _ hd hn ih => exact wf.lt _ _ _ _ ih hd hn

theorem Grid.Conn.symm {G : Grid} (wf : G.WF) {i j : Nat} (hi : i < G.size) (h : G.Conn i j) :
    G.Conn j i := by
  induction h with
  | refl => exact .refl
  | step h1 hd hn ih =>
    have hj := h1.lt wf hi
    exact (Grid.Conn.step .refl hd (wf.symm _ _ _ _ hj hd hn)).trans ih

/-- Every cell can be reached from every other. -/
def Grid.Connected (G : Grid) : Prop := ∀ i < G.size, ∀ j < G.size, G.Conn i j

theorem conn_of_zero {G : Grid} (wf : G.WF) (h : ∀ i < G.size, G.Conn i 0) : G.Connected := by
  intro i hi j hj
  exact (h i hi).trans ((h j hj).symm wf hj)

theorem conn1 (n : Nat) : (gridOf [n]).Connected := by
  apply conn_of_zero (wf1 n)
  intro i
  induction i with
  | zero => intro _; exact .refl
  | succ i ih =>
    intro hi
    simp only [gridOf, List.prod_cons, List.prod_nil, mul_one] at hi
    refine (Grid.Conn.step .refl (d := 0) (dir := false) (by simp [gridOf]) (a := i) ?_).trans
      (ih (by simp [gridOf]; omega))
    rw [nb1]; simp; omega

theorem conn2 (n m : Nat) : (gridOf [n, m]).Connected := by
  apply conn_of_zero (wf2 n m)
  intro i
  induction i using Nat.strongRecOn with
  | ind i ih =>
    intro hi
    have hi' : i < n * m := by simpa [gridOf] using hi
    have hm : 0 < m := by
      rcases Nat.eq_zero_or_pos m with h' | h'
      · subst h'; simp at hi'
      · exact h'
    have hq : i / m < n := Nat.div_lt_of_lt_mul (by rw [mul_comm]; exact hi')
    rcases Nat.eq_zero_or_pos i with rfl | hpos
    · exact .refl
    · by_cases hc : i % m = 0
      · have hd : 0 < i / m := by
          have := Nat.div_add_mod i m
          rcases Nat.eq_zero_or_pos (i / m) with h | h
          · rw [h, hc] at this; omega
          · exact h
        have hge : m ≤ i := Nat.le_of_not_lt fun h => by rw [Nat.div_eq_of_lt h] at hd; omega
        refine (Grid.Conn.step .refl (d := 0) (dir := false) (by simp [gridOf]) (a := i - m) ?_).trans
          (ih (i - m) (by omega) (by simp [gridOf]; omega))
        rw [nb2_0]
        simp only [Bool.false_eq_true, if_false]
        rw [if_neg (by omega)]
      · have h4 := Nat.mod_lt i hm
        refine (Grid.Conn.step .refl (d := 1) (dir := false) (by simp [gridOf]) (a := i - 1) ?_).trans
          (ih (i - 1) (by omega) (by simp [gridOf]; omega))
        rw [nb2_1]
        simp only [Bool.false_eq_true, if_false]
        rw [if_neg (by omega)]

end Verif.March
