import Verif.Step.Model
import Verif.Fv.Lemmas

/-!
# Properties C13 and C14: worker chunks and schedules
-/

namespace Verif.Step

open Verif.Fv

variable {E D R : Type}

/-! ### C13 -/

theorem start_zero (nx T : Nat) : start nx T 0 = 0 := by simp [start]

theorem start_last (nx T : Nat) (hT : 0 < T) : start nx T T = nx := by
  simp [start, Nat.mul_div_cancel_left nx hT]

theorem start_mono (nx T : Nat) {w w' : Nat} (h : w ≤ w') : start nx T w ≤ start nx T w' :=
  Nat.div_le_div_right (Nat.mul_le_mul_right nx h)

/-- **C13.**  Every row belongs to exactly one worker, the ranges are in order, start at 0 and end at `nx`. -/
theorem chunks_partition (nx T : Nat) (hT : 0 < T) :
    (∀ c, c < nx → ∃ w, (w < T ∧ start nx T w ≤ c ∧ c < start nx T (w + 1)) ∧
      ∀ w', start nx T w' ≤ c ∧ c < start nx T (w' + 1) → w' = w) ∧
    (∀ w, w < T → start nx T w ≤ start nx T (w + 1) ∧ start nx T (w + 1) ≤ nx) ∧
    start nx T 0 = 0 ∧ start nx T T = nx := by
  refine ⟨fun c hc => ?_, fun w hw => ⟨start_mono nx T (by omega), ?_⟩, start_zero nx T, start_last nx T hT⟩
  · have hex : ∃ w, c < start nx T (w + 1) := ⟨T - 1, by
      rw [show T - 1 + 1 = T by omega, start_last nx T hT]; exact hc⟩
    classical
    let w := Nat.find hex
    have hw : c < start nx T (w + 1) := Nat.find_spec hex
    have hmin : ∀ m, m < w → ¬ c < start nx T (m + 1) := fun m hm => Nat.find_min hex hm
    have hlo : start nx T w ≤ c := by
      rcases Nat.eq_zero_or_pos w with h0 | h0
      · rw [h0, start_zero]; exact Nat.zero_le _
      · have := hmin (w - 1) (by omega)
        rw [show w - 1 + 1 = w by omega] at this
        omega
    have hwT : w < T := by
      by_contra h
      have : start nx T T ≤ start nx T w := start_mono nx T (by omega)
      rw [start_last nx T hT] at this
      omega
    refine ⟨w, ⟨hwT, hlo, hw⟩, fun w' h' => ?_⟩
    rcases Nat.lt_trichotomy w' w with h | h | h
    · exact absurd h'.2 (hmin w' h)
    · exact h
    · have := start_mono nx T (show w + 1 ≤ w' by omega)
      omega
  · have := start_mono nx T (show w + 1 ≤ T by omega)
    rw [start_last nx T hT] at this
    exact this

example : (List.range 3).map (start 10 3) = [0, 3, 6] ∧ start 10 3 3 = 10 := by decide

/-- More workers than rows: some chunks are empty. -/
example : (List.range 5).map (start 2 4) = [0, 0, 1, 1, 2] := by decide

/-! ### Any schedule -/

theorem schedule_at {nthreads : Nat} {work : Nat → List (Nat × D)} {l : List (Nat × Nat × D)}
    (h : IsSchedule nthreads work l) (c w0 : Nat) (hw0 : w0 < nthreads)
    (hne : ∀ w, w < nthreads → w ≠ w0 → at' c (work w) = []) :
    at' c (l.map Prod.snd) = at' c (work w0) := by
  rw [← h.2 w0 hw0]
  unfold at'
  rw [List.filter_map, List.filter_map, List.filter_filter, List.map_map, List.map_map]
  congr 1
  refine List.filter_congr fun x hx => ?_
  simp only [Function.comp]
  by_cases hc : x.2.1 == c
  · rw [hc, Bool.true_and]
    by_contra hxw
    have hxw : x.1 ≠ w0 := fun e => hxw (by simp [e])
    have hmem : x.2 ∈ work x.1 := by
      rw [← h.2 x.1 (h.1 x hx)]
      exact List.mem_map.mpr ⟨x, List.mem_filter.mpr ⟨hx, by simp⟩, rfl⟩
    have := hne x.1 (h.1 x hx) hxw
    unfold at' at this
    rw [List.map_eq_nil_iff, List.filter_eq_nil_iff] at this
    exact this x.2 hmem hc
  · rw [Bool.not_eq_true] at hc
    rw [hc, Bool.false_and]

theorem at'_shift (s c : Nat) (l : List (Nat × D)) :
    at' (s + c) (l.map fun op => (s + op.1, op.2)) = at' c l := by
  unfold at'
  rw [List.filter_map, List.map_map]
  congr 1
  refine List.filter_congr fun x _ => ?_
  simp only [Function.comp]
  by_cases h : x.1 = c
  · simp [h]
  · simp [h]

theorem at'_shift_lt (s c : Nat) (h : c < s) (l : List (Nat × D)) :
    at' c (l.map fun op => (s + op.1, op.2)) = [] := by
  unfold at'
  rw [List.map_eq_nil_iff, List.filter_eq_nil_iff]
  intro x hx
  obtain ⟨y, -, rfl⟩ := List.mem_map.mp hx
  simp only [beq_iff_eq]
  omega

/-- If each worker, on its own rows, does to every cell what the serial program does, then every schedule
leaves the field the serial program leaves.  Rows have `width` cells. -/
theorem schedule_serial (app : E → D → E) (nx T width : Nat) (hT : 0 < T) (local' : Nat → List (Nat × D))
    (serial : List (Nat × D)) (l : List (Nat × Nat × D))
    (hl : IsSchedule T (fun w => (local' w).map fun op => (start nx T w * width + op.1, op.2)) l)
    (hout : ∀ w, w < T → ∀ c, (start nx T (w + 1) - start nx T w) * width ≤ c → at' c (local' w) = [])
    (hsout : ∀ c, nx * width ≤ c → at' c serial = [])
    (heq : ∀ w, w < T → ∀ x y, y < width → start nx T w + x < start nx T (w + 1) →
      at' (x * width + y) (local' w) = at' ((start nx T w + x) * width + y) serial)
    (u : Nat → E) : apply app (l.map Prod.snd) u = apply app serial u := by
  obtain ⟨hpart, hord, -, -⟩ := chunks_partition nx T hT
  funext c
  rw [apply_get, apply_get]
  congr 1
  have hmiss : ∀ w, w < T → ¬ (start nx T w * width ≤ c ∧ c < start nx T (w + 1) * width) →
      at' c ((local' w).map fun op => (start nx T w * width + op.1, op.2)) = [] := by
    intro w hw h
    by_cases h1 : c < start nx T w * width
    · exact at'_shift_lt _ _ h1 _
    · have h1 : start nx T w * width ≤ c := by omega
      have h2 : start nx T (w + 1) * width ≤ c := by
        by_contra h3
        exact h ⟨h1, by omega⟩
      rw [show c = start nx T w * width + (c - start nx T w * width) by omega, at'_shift]
      refine hout w hw _ ?_
      rw [Nat.sub_mul]; omega
  by_cases hc : c < nx * width
  · have hwid : 0 < width := by
      rcases Nat.eq_zero_or_pos width with h0 | h0
      · rw [h0, Nat.mul_zero] at hc; omega
      · exact h0
    have hx : c / width < nx := (Nat.div_lt_iff_lt_mul hwid).mpr hc
    obtain ⟨w, ⟨hw, hlo, hhi⟩, huniq⟩ := hpart _ hx
    have hrow : ∀ w, start nx T w * width ≤ c ∧ c < start nx T (w + 1) * width ↔
        start nx T w ≤ c / width ∧ c / width < start nx T (w + 1) := fun w => by
      rw [Nat.le_div_iff_mul_le hwid, Nat.div_lt_iff_lt_mul hwid]
    rw [schedule_at hl c w hw fun w' hw' hne => hmiss w' hw' fun h => hne (huniq w' ((hrow w').mp h))]
    obtain ⟨h1, h2⟩ := (hrow w).mpr ⟨hlo, hhi⟩
    obtain ⟨k, hk⟩ := Nat.exists_eq_add_of_le hlo
    have hcw : c = (start nx T w + k) * width + c % width := by
      rw [← hk, Nat.mul_comm]; exact (Nat.div_add_mod c width).symm
    have hmod : c % width < width := Nat.mod_lt _ hwid
    have := heq w hw k (c % width) hmod (by omega)
    rw [← hcw] at this
    rw [← this]
    conv_lhs => rw [hcw, Nat.add_mul, Nat.add_assoc]
    exact at'_shift _ _ _
  · rw [hsout c (by omega)]
    rw [schedule_at hl c 0 hT]
    · refine hmiss 0 hT fun h => ?_
      have := Nat.mul_le_mul_right width (hord 0 hT).2
      omega
    · intro w hw _
      refine hmiss w hw fun h => ?_
      have := Nat.mul_le_mul_right width (hord w hw).2
      omega

end Verif.Step
