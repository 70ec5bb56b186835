import Verif.Wgs.Model
import Mathlib.Tactic.LinearCombination
import Mathlib.Tactic.Linarith
import Mathlib.Tactic.FieldSimp
import Mathlib.Tactic.Positivity

/-!
# The formula of Heikkinen finds the foot of a point on the ellipsoid

`e` is the square of the eccentricity. The foot `t` (its distance from the axis) of a point at distance `r` from the axis and height `Z`
solves `t² ((r - e t)² + (1 - e) Z²) = A² (r - e t)²`.
-/

namespace Verif.Wgs

open Real

/-- The equation of the foot, with `Y = (1 - e) Z²`. -/
def Foot (e A r Y t : ℝ) : Prop := t ^ 2 * ((r - e * t) ^ 2 + Y) = A ^ 2 * (r - e * t) ^ 2

theorem foot_lt {e A r Y y t : ℝ} (he : 0 < e) (hY : 0 ≤ Y) (hy : 0 ≤ y) (hyt : y < t) (ht : e * t < r) (h1 : Foot e A r Y y)
    (h2 : Foot e A r Y t) : False := by
  unfold Foot at h1 h2
  have hw : 0 < r - e * t := by linarith
  have hv : r - e * t < r - e * y := by nlinarith
  have hv0 : 0 < r - e * y := by linarith
  have d1 : y ^ 2 + Y * (y / (r - e * y)) ^ 2 = A ^ 2 := by
    have hne : (r - e * y) ^ 2 ≠ 0 := pow_ne_zero 2 hv0.ne'
    rw [div_pow]
    apply mul_right_cancel₀ hne
    rw [add_mul, mul_assoc, div_mul_cancel₀ _ hne]
    linear_combination h1
  have d2 : t ^ 2 + Y * (t / (r - e * t)) ^ 2 = A ^ 2 := by
    have hne : (r - e * t) ^ 2 ≠ 0 := pow_ne_zero 2 hw.ne'
    rw [div_pow]
    apply mul_right_cancel₀ hne
    rw [add_mul, mul_assoc, div_mul_cancel₀ _ hne]
    linear_combination h2
  have q : y / (r - e * y) ≤ t / (r - e * t) := by
    rw [div_le_div_iff₀ hv0 hw]
    nlinarith
  have q0 : 0 ≤ y / (r - e * y) := div_nonneg hy hv0.le
  have q2 : (y / (r - e * y)) ^ 2 ≤ (t / (r - e * t)) ^ 2 := pow_le_pow_left₀ q0 q 2
  have := mul_le_mul_of_nonneg_left q2 hY
  nlinarith

theorem foot_unique {e A r Y y t : ℝ} (he : 0 < e) (hY : 0 ≤ Y) (hy : 0 ≤ y) (ht : 0 ≤ t) (hy' : e * y < r) (ht' : e * t < r)
    (h1 : Foot e A r Y y) (h2 : Foot e A r Y t) : y = t := by
  rcases lt_trichotomy y t with h | h | h
  · exact (foot_lt he hY hy h ht' h1 h2).elim
  · exact h
  · exact (foot_lt he hY ht h hy' h2 h1).elim

/-- The solution of the equation on the other side of the axis is not far. -/
theorem foot_neg {e A r Y z : ℝ} (he : 0 < e) (hr : 0 < r) (hz : 0 ≤ z) (hY : 0 ≤ Y) (hfar : 4 * (A * e) ^ 2 < 4 * r ^ 2 + Y)
    (h : Foot e A r Y (-z)) : e * z < r := by
  unfold Foot at h
  by_contra hc
  have hc : r ≤ e * z := not_lt.mp hc
  have hw : 0 < r + e * z := by nlinarith
  have h' : z ^ 2 * ((r + e * z) ^ 2 + Y) = A ^ 2 * (r + e * z) ^ 2 := by linear_combination h
  have hw2 : (r + e * z) ^ 2 ≤ (2 * (e * z)) ^ 2 := pow_le_pow_left₀ hw.le (by linarith) 2
  have hr2 : r ^ 2 ≤ (e * z) ^ 2 := pow_le_pow_left₀ hr.le hc 2
  have m1 := mul_le_mul_of_nonneg_right hw2 hY
  have m2 := mul_le_mul_of_nonneg_right hr2 (sq_nonneg (r + e * z))
  have m3 := mul_lt_mul_of_pos_right hfar (pow_pos hw 2)
  have m4 : 4 * e ^ 2 * (z ^ 2 * ((r + e * z) ^ 2 + Y)) = 4 * e ^ 2 * (A ^ 2 * (r + e * z) ^ 2) := by rw [h']
  linarith

/-- The quartic falls apart into two quadratics. -/
theorem factors {e A r Y Q : ℝ} (he : e ≠ 0) (hQ : Q ≠ 0)
    (hcub : (Q ^ 2 - 1) * (r ^ 2 * Q ^ 2 + Y - A ^ 2 * e ^ 2) ^ 2 = 4 * e ^ 2 * A ^ 2 * Y) (x : ℝ) :
    x ^ 2 * ((r - e * x) ^ 2 + Y) - A ^ 2 * (r - e * x) ^ 2 =
      e ^ 2 * (x ^ 2 + r * (Q - 1) / e * x + ((Q - 1) * (r ^ 2 * Q ^ 2 + Y) / (2 * e ^ 2 * Q) - A ^ 2 * (Q + 1) / (2 * Q))) *
        (x ^ 2 - r * (Q + 1) / e * x + ((Q + 1) * (r ^ 2 * Q ^ 2 + Y) / (2 * e ^ 2 * Q) - A ^ 2 * (Q - 1) / (2 * Q))) := by
  field_simp
  linear_combination (-1 : ℝ) * hcub

/-- The number under the root, and what is subtracted from the root, give the foot. -/
theorem root_foot {e A r Y Q t : ℝ} (he : 0 < e) (hr : 0 < r) (hY : 0 ≤ Y) (ht : 0 < t) (ht' : e * t < r) (hA : A ≠ 0) (hQ : 1 ≤ Q)
    (hfar : 4 * (A * e) ^ 2 < 4 * r ^ 2 + Y) (hf : Foot e A r Y t)
    (hcub : (Q ^ 2 - 1) * (r ^ 2 * Q ^ 2 + Y - A ^ 2 * e ^ 2) ^ 2 = 4 * e ^ 2 * A ^ 2 * Y) (rad : ℝ)
    (hrad : rad = A ^ 2 * (1 + Q) / (2 * Q) - Y * (Q - 1) / (2 * e ^ 2 * Q) - (Q ^ 2 - 1) * r ^ 2 / (4 * e ^ 2)) :
    0 ≤ rad ∧ √rad = t + r * (Q - 1) / (2 * e) := by
  have hQ0 : Q ≠ 0 := by linarith
  have he0 : e ≠ 0 := he.ne'
  set B := r * (Q - 1) / (2 * e) with hB
  have hB0 : 0 ≤ B := div_nonneg (mul_nonneg hr.le (by linarith)) (by linarith)
  set β := (Q - 1) * (r ^ 2 * Q ^ 2 + Y) / (2 * e ^ 2 * Q) - A ^ 2 * (Q + 1) / (2 * Q) with hβ
  set β' := (Q + 1) * (r ^ 2 * Q ^ 2 + Y) / (2 * e ^ 2 * Q) - A ^ 2 * (Q - 1) / (2 * Q) with hβ'
  have hfac : ∀ x, x ^ 2 * ((r - e * x) ^ 2 + Y) - A ^ 2 * (r - e * x) ^ 2 =
      e ^ 2 * (x ^ 2 + 2 * B * x + β) * (x ^ 2 - r * (Q + 1) / e * x + β') := by
    intro x
    rw [factors he0 hQ0 hcub x]
    have : r * (Q - 1) / e = 2 * B := by rw [hB]; field_simp
    rw [this]
  have hradβ : rad = B ^ 2 - β := by
    rw [hrad, hB, hβ]
    field_simp
    ring
  have first : t ^ 2 + 2 * B * t + β = 0 → 0 ≤ rad ∧ √rad = t + B := by
    intro h
    have : rad = (t + B) ^ 2 := by rw [hradβ]; linear_combination (-1 : ℝ) * h
    rw [this]
    exact ⟨sq_nonneg _, sqrt_sq (by linarith)⟩
  have h0 : e ^ 2 * (t ^ 2 + 2 * B * t + β) * (t ^ 2 - r * (Q + 1) / e * t + β') = 0 := by
    rw [← hfac t]; unfold Foot at hf; linarith
  rcases mul_eq_zero.mp h0 with h0 | h0
  · rcases mul_eq_zero.mp h0 with h0 | h0
    · exact absurd h0 (pow_ne_zero 2 he0)
    · exact first h0
  · -- then the other factor has a root of either sign
    have hte : t < r / e := by rw [lt_div_iff₀ he]; linarith
    have hQe : r / e ≤ r * (Q + 1) / e := by
      rw [div_le_div_iff_of_pos_right he]; nlinarith
    have hβ'0 : 0 < β' := by
      have : β' = t * (r * (Q + 1) / e - t) := by linear_combination h0
      rw [this]
      exact mul_pos ht (by linarith)
    have hprod : β * β' = -(A ^ 2 * r ^ 2) / e ^ 2 := by
      have := hfac 0
      field_simp
      linear_combination (-1 : ℝ) * this
    have hβ0 : β < 0 := by
      have hneg : β * β' < 0 := by
        rw [hprod]
        apply div_neg_of_neg_of_pos
        · have : 0 < A ^ 2 * r ^ 2 := by positivity
          linarith
        · positivity
      by_contra hc
      exact absurd (mul_nonneg (not_lt.mp hc) hβ'0.le) (not_le.mpr hneg)
    have hrad0 : B ^ 2 < rad := by rw [hradβ]; linarith
    have hradn : 0 ≤ rad := le_trans (sq_nonneg B) hrad0.le
    have hS : B < √rad := by
      rw [lt_sqrt hB0]; exact hrad0
    have hsq := sq_sqrt hradn
    set S := √rad
    have hneg : Foot e A r Y (-(S + B)) := by
      unfold Foot
      have := hfac (-(S + B))
      have e0 : (-(S + B)) ^ 2 + 2 * B * (-(S + B)) + β = 0 := by
        have : (-(S + B)) ^ 2 + 2 * B * (-(S + B)) + β = S ^ 2 - B ^ 2 + β := by ring
        rw [this, hsq, hradβ]; ring
      rw [e0] at this
      linarith
    have hz := foot_neg he hr (by linarith) hY hfar hneg
    have hpos : Foot e A r Y (S - B) := by
      unfold Foot
      have := hfac (S - B)
      have e0 : (S - B) ^ 2 + 2 * B * (S - B) + β = 0 := by
        have : (S - B) ^ 2 + 2 * B * (S - B) + β = S ^ 2 - B ^ 2 + β := by ring
        rw [this, hsq, hradβ]; ring
      rw [e0] at this
      linarith
    have := foot_unique he hY (by linarith) ht.le (by nlinarith) ht' hpos hf
    exact ⟨hradn, by linarith⟩

/-- Cardano: with `s` the cube root of `1 + c + √(c² + 2c)`, the number `k = s + 1/s + 1` solves `k³ - 3k² = 2c`. -/
theorem cardano {c : ℝ} (hc : 0 ≤ c) :
    let s := (1 + c + √(c * c + 2 * c)) ^ (1 / 3 : ℝ)
    0 < s ∧ (s + 1 / s + 1) ^ 3 - 3 * (s + 1 / s + 1) ^ 2 = 2 * c ∧ 0 < s + 1 / s + 1 := by
  intro s
  have hd : 0 ≤ c * c + 2 * c := by positivity
  have hm : 0 < 1 + c + √(c * c + 2 * c) := by positivity
  have hs : 0 < s := rpow_pos_of_pos hm _
  have hs3 : s ^ 3 = 1 + c + √(c * c + 2 * c) := by
    show ((1 + c + √(c * c + 2 * c)) ^ (1 / 3 : ℝ)) ^ 3 = _
    rw [← rpow_natCast, ← rpow_mul hm.le]
    norm_num
  have hk : 0 < s + 1 / s + 1 := by positivity
  refine ⟨hs, ?_, hk⟩
  have hsq := sq_sqrt hd
  have hquad : s ^ 6 - 2 * (1 + c) * s ^ 3 + 1 = 0 := by
    have : s ^ 6 = (s ^ 3) ^ 2 := by ring
    rw [this, hs3]
    linear_combination hsq
  field_simp
  linear_combination hquad

/-- The numbers `c`, `P`, `Q` of the code solve the cubic. -/
theorem cubic {e A X Y F G c s P Q : ℝ} (he : 0 < e) (hX : 0 ≤ X) (hY : 0 ≤ Y) (hF : F = 54 * (A ^ 2 * Y)) (hG : G = X + Y - A ^ 2 * e ^ 2) (hG0 : 0 < G)
    (hc : c = e * e * F * X / (G * G * G)) (hs : s = (1 + c + √(c * c + 2 * c)) ^ (1 / 3 : ℝ))
    (hP : P = F / (3 * (s + 1 / s + 1) ^ 2 * G * G)) (hQ : Q = √(1 + 2 * e * e * P)) :
    0 ≤ c ∧ 0 < s ∧ 0 ≤ P ∧ 1 ≤ Q ∧ Q ^ 2 = 1 + 2 * e * e * P ∧ (Q ^ 2 - 1) * (X * Q ^ 2 + Y - A ^ 2 * e ^ 2) ^ 2 = 4 * e ^ 2 * A ^ 2 * Y := by
  have hF0 : 0 ≤ F := by rw [hF]; positivity
  have hc0 : 0 ≤ c := by rw [hc]; positivity
  obtain ⟨hs0, hk, hk0⟩ := cardano hc0
  rw [← hs] at hs0 hk hk0
  set k := s + 1 / s + 1
  have hP0 : 0 ≤ P := by rw [hP]; positivity
  have hQ1 : 1 ≤ Q := by
    rw [hQ, show (1 : ℝ) = √1 by simp]
    apply sqrt_le_sqrt
    have : 0 ≤ 2 * e * e * P := by positivity
    simp only [sqrt_one]
    linarith
  have hQ2 : Q ^ 2 = 1 + 2 * e * e * P := by
    rw [hQ, sq_sqrt]; positivity
  refine ⟨hc0, hs0, hP0, hQ1, hQ2, ?_⟩
  have hFP : F = 3 * k ^ 2 * G ^ 2 * P := by
    rw [hP]; field_simp
  have hk3 : k * G = 3 * G + 6 * e ^ 2 * X * P := by
    have h1 : k ^ 2 * (k - 3) * G ^ 3 = 2 * (e * e * F * X) := by
      have : k ^ 2 * (k - 3) = 2 * c := by linear_combination hk
      rw [this, hc]
      field_simp
    have h2 : k ^ 2 * G ^ 2 * ((k - 3) * G - 6 * e ^ 2 * X * P) = 0 := by
      rw [hFP] at h1
      linear_combination h1
    have h3 : (k - 3) * G - 6 * e ^ 2 * X * P = 0 := by
      rcases mul_eq_zero.mp h2 with h | h
      · exact absurd h (by positivity)
      · exact h
    linarith
  have hcube : P * (G + 2 * e ^ 2 * X * P) ^ 2 = 2 * (A ^ 2 * Y) := by
    have h1 : F = 3 * P * (k * G) ^ 2 := by rw [hFP]; ring
    rw [hk3] at h1
    have : 27 * (P * (G + 2 * e ^ 2 * X * P) ^ 2) = 27 * (2 * (A ^ 2 * Y)) := by
      rw [hF] at h1
      linear_combination -h1
    linarith
  rw [hQ2]
  have hin : X * (1 + 2 * e * e * P) + Y - A ^ 2 * e ^ 2 = G + 2 * e ^ 2 * X * P := by rw [hG]; ring
  rw [hin]
  linear_combination 2 * e ^ 2 * hcube

end Verif.Wgs
