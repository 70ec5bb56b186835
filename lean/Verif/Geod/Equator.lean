import Verif.Geod.InvProps

/-!
# C71, along the equator
-/

namespace Verif.Geod

open Real
open Verif.Wgs
open Verif.Globe (LL E3 Err radians degrees atan2 pmod vec heading ext3 rad_eq atan2_cos_sin atan2_polar radians_pmod)

theorem reduced_zero : reduced 0 = 0 := by
  unfold reduced
  simp [radians]

/-- One iteration on the equator, before the antipode. -/
theorem eq_step {L l : ℝ} (h0 : 0 < l) (h1 : l < π) : invStep 0 0 L l = .ok ⟨sin l, cos l, sin l, cos l, l, 1, 0, 0, L + f * l⟩ := by
  have hs : 0 < sin l := sin_pos_of_pos_of_lt_pi h0 h1
  have hS : √((cos 0 * sin l) ^ 2 + (cos 0 * sin 0 - sin 0 * cos 0 * cos l) ^ 2) = sin l := by
    simp [sqrt_sq hs.le]
  have hK : sin 0 * sin 0 + cos 0 * cos 0 * cos l = cos l := by simp
  have hσ := atan2_polar one_pos (by linarith : -π < l) h1.le
  rw [one_mul, one_mul] at hσ
  unfold invStep
  simp only [hS, hK, if_neg hs.ne', hσ]
  have hA : cos 0 * cos 0 * sin l / sin l = 1 := by simp [hs.ne']
  simp only [hA]
  simp [bigC]

/-- One iteration on the equator, beyond the antipode. -/
theorem eq_step' {L l : ℝ} (h0 : π < l) (h1 : l < 2 * π) : ∃ it, invStep 0 0 L l = .ok it ∧ it.next = L - f * (2 * π - l) := by
  have hs : 0 < sin (2 * π - l) := sin_pos_of_pos_of_lt_pi (by linarith) (by linarith)
  have e1 : sin l = -sin (2 * π - l) := by rw [sin_two_pi_sub]; ring
  have e2 : cos l = cos (2 * π - l) := by rw [cos_two_pi_sub]
  set m := 2 * π - l with hm
  have hS : √((cos 0 * sin l) ^ 2 + (cos 0 * sin 0 - sin 0 * cos 0 * cos l) ^ 2) = sin m := by
    rw [e1]; simp [sqrt_sq hs.le]
  have hK : sin 0 * sin 0 + cos 0 * cos 0 * cos l = cos m := by rw [e2]; simp
  have hσ := atan2_polar one_pos (by linarith : -π < m) (by linarith)
  rw [one_mul, one_mul] at hσ
  unfold invStep
  simp only [hS, hK, if_neg hs.ne', hσ]
  have hA : cos 0 * cos 0 * sin l / sin m = -1 := by rw [e1]; field_simp; simp
  simp only [hA]
  exact ⟨_, rfl, by simp [bigC]; ring⟩

theorem eq_pi (L : ℝ) : invStep 0 0 L π = .error .zeroDivision := by
  unfold invStep
  simp

/-- The iterates on the equator. -/
theorem eq_loop {L tol : ℝ} (hL : 0 < L) (hL' : L < (1 - f) * π) {l : ℝ} (h0 : 0 < l) (h1 : l ≤ L / (1 - f)) {n : ℕ}
    (hn : f ^ n * (L - (1 - f) * l) < tol) : ∃ m, 0 < m ∧ m < π ∧
      invLoop 0 0 L tol (n + 1) l = .ok ⟨sin m, cos m, sin m, cos m, m, 1, 0, 0, L + f * m⟩ ∧ |m - L / (1 - f)| < tol / (1 - f) := by
  have hf := f_pos
  have hf' := one_sub_f_pos
  have hlt : L / (1 - f) < π := by rw [div_lt_iff₀ hf']; linarith
  have hd : L + f * l - l = L - (1 - f) * l := by ring
  have hge : 0 ≤ L - (1 - f) * l := by
    have := (le_div_iff₀ hf').mp h1
    linarith
  induction n generalizing l with
  | zero =>
    unfold invLoop
    rw [eq_step h0 (by linarith)]
    simp only [pow_zero, one_mul] at hn
    simp only [hd, abs_of_nonneg hge, if_pos hn]
    refine ⟨l, h0, by linarith, rfl, ?_⟩
    have : l - L / (1 - f) = -((L - (1 - f) * l) / (1 - f)) := by field_simp; ring
    rw [this, abs_neg, abs_of_nonneg (by positivity)]
    exact div_lt_div_of_pos_right hn hf'
  | succ n ih =>
    unfold invLoop
    rw [eq_step h0 (by linarith)]
    simp only [hd, abs_of_nonneg hge]
    split
    · rename_i hlt'
      refine ⟨l, h0, by linarith, rfl, ?_⟩
      have : l - L / (1 - f) = -((L - (1 - f) * l) / (1 - f)) := by field_simp; ring
      rw [this, abs_neg, abs_of_nonneg (by positivity)]
      exact div_lt_div_of_pos_right hlt' hf'
    · have e : L - (1 - f) * (L + f * l) = f * (L - (1 - f) * l) := by ring
      refine ih (by positivity) ?_ ?_ (by ring) ?_
      · rw [le_div_iff₀ hf']
        have := mul_nonneg hf.le hge
        linarith
      · rw [e, ← mul_assoc, ← pow_succ]; exact hn
      · rw [e]; exact mul_nonneg hf.le hge

/-- **C71.** Along the equator, eastwards, the distance is the arc of the equator, however far the places are apart short of the region
about the antipode; seven iterations are enough for the usual tolerance. -/
theorem c71_equator {k tol : ℝ} {n : ℕ} {p q : LL} (hk : 0 < k) (ht : 1e-12 ≤ tol) (hn : 7 ≤ n) (hp : p.1 = 0) (hq : q.1 = 0)
    (h0 : 0 < q.2 - p.2) (h1 : q.2 - p.2 < 180 * (1 - f)) :
    ∃ d, distBearing k tol n p q = .ok (d, 90) ∧ |d * k - a * radians (q.2 - p.2)| ≤ 5e-7 + a * tol := by
  have hf := f_pos
  have hf' := one_sub_f_pos
  have hb := b_pos
  have hπ := pi_pos
  set L := radians (q.2 - p.2) with hLd
  have hL : 0 < L := by rw [hLd]; unfold radians; positivity
  have hL' : L < (1 - f) * π := by
    rw [hLd]; unfold radians
    rw [← sub_pos]
    have : (1 - f) * π - (q.2 - p.2) * (π / 180) = (180 * (1 - f) - (q.2 - p.2)) * (π / 180) := by ring
    rw [this]
    exact mul_pos (by linarith) (by positivity)
  obtain ⟨m, rfl⟩ : ∃ m, n = m + 1 := ⟨n - 1, by omega⟩
  have hsmall : f ^ m * (L - (1 - f) * L) < tol := by
    have e : L - (1 - f) * L = f * L := by ring
    rw [e, ← mul_assoc, ← pow_succ]
    have h7 : f ^ (m + 1) ≤ f ^ 7 := pow_le_pow_of_le_one hf.le (by have := f_lt; linarith) hn
    have h7' : f ^ 7 ≤ 1e-16 := by unfold f; norm_num
    have : L ≤ 4 := by have := pi_lt_four; nlinarith
    have : f ^ (m + 1) * L ≤ 1e-16 * 4 := mul_le_mul (h7.trans h7') this hL.le (by norm_num)
    norm_num at this ht ⊢
    linarith
  have hle : L ≤ L / (1 - f) := by
    rw [le_div_iff₀ hf']
    nlinarith
  obtain ⟨l, hl0, hlπ, hit, hs⟩ := eq_loop hL hL' hL hle hsmall
  unfold distBearing
  rw [if_neg (fun h => by linarith [h.2])]
  simp only [hp, hq, reduced_zero, ← hLd]
  rw [hit]
  simp only
  unfold finish
  have hsin : 0 < sin l := sin_pos_of_pos_of_lt_pi hl0 hlπ
  have haz : pmod (degrees (atan2 (cos 0 * sin l) (cos 0 * sin 0 - sin 0 * cos 0 * cos l))) 360 = 90 := by
    have := atan2_polar hsin (by linarith : -π < π / 2) (by linarith)
    simp only [sin_pi_div_two, cos_pi_div_two, mul_one, mul_zero] at this
    simp only [cos_zero, sin_zero, one_mul, zero_mul, sub_zero, this]
    have e : degrees (π / 2) = 90 := by unfold degrees; field_simp; norm_num
    have hfl : ⌊(90 : ℝ) / 360⌋ = 0 := by rw [Int.floor_eq_zero_iff]; norm_num
    rw [e]
    simp [pmod, hfl]
  simp only [haz]
  refine ⟨_, rfl, ?_⟩
  have hlen : b * bigA (uSq 0) * (l - deltaSigma (bigB (uSq 0)) (sin l) (cos l) 0) = b * l := by
    simp [bigA, bigB, uSq, deltaSigma]
  rw [hlen, div_mul_cancel₀ _ hk.ne']
  have hr := round6_bd (b * l)
  have hb' : b = a * (1 - f) := rfl
  have hm : |b * l - a * L| ≤ a * tol := by
    have e : b * l - a * L = b * (l - L / (1 - f)) := by rw [hb']; field_simp
    rw [e, abs_mul, abs_of_pos hb]
    have : b * (tol / (1 - f)) = a * tol := by rw [hb']; field_simp
    rw [← this]
    exact mul_le_mul_of_nonneg_left hs.le hb.le
  rw [abs_le] at hr hm ⊢
  constructor <;> linarith [hr.1, hr.2, hm.1, hm.2]

example : ∃ d, distBearing 1000 1e-12 200 (0, 10) (0, 170) = .ok (d, 90) ∧ |d * 1000 - a * radians (170 - 10)| ≤ 5e-7 + a * 1e-12 :=
  c71_equator (by norm_num) le_rfl (by norm_num) rfl rfl (by norm_num) (by unfold f; norm_num)

/-- Close to the antipode the iteration jumps to and fro. -/
theorem antipode_loop {L tol : ℝ} (h0 : (1 - f) * π + tol ≤ L) (h1 : L < π) (ht : 0 < tol) (ht' : tol ≤ f * π) (n : ℕ) {l : ℝ} (hl : 0 < l)
    (hl' : l < 2 * π) : ∃ e, invLoop 0 0 L tol n l = .error e := by
  have hf := f_pos
  have hf' := one_sub_f_pos
  have hπ := pi_pos
  have hflt := f_lt
  have hL : 0 < L := by have : 0 < (1 - f) * π := mul_pos hf' hπ; linarith
  induction n generalizing l with
  | zero => exact ⟨_, rfl⟩
  | succ n ih =>
    unfold invLoop
    rcases lt_trichotomy l π with h | h | h
    · rw [eq_step hl h]
      simp only
      have hgap : tol ≤ |L + f * l - l| := by
        rw [le_abs]; left; nlinarith
      rw [if_neg (not_lt.mpr hgap)]
      exact ih (by positivity) (by nlinarith)
    · rw [h, eq_pi]; exact ⟨_, rfl⟩
    · obtain ⟨it, hit, hn⟩ := eq_step' (L := L) h hl'
      rw [hit]
      simp only
      have hgap : tol ≤ |it.next - l| := by
        rw [hn, le_abs]; right; nlinarith
      rw [if_neg (not_lt.mpr hgap)]
      refine ih ?_ ?_ <;> rw [hn] <;> nlinarith

/-- **C71, where it fails.** Between places on the equator that are almost antipodal (more than 179.4 degrees apart) neither distance nor
bearing can be had, however many iterations are allowed. -/
theorem c71_antipodal {tol : ℝ} (p q : LL) (ht : 0 < tol) (ht' : tol ≤ 1e-5) (hp : p.1 = 0) (hq : q.1 = 0) (h0 : 179.4 ≤ q.2 - p.2)
    (h1 : q.2 - p.2 < 180) (k : ℝ) (n : ℕ) : ∃ e, distBearing k tol n p q = .error e := by
  have hπ := pi_pos
  have hπ3 := pi_gt_three
  unfold distBearing
  rw [if_neg (fun h => by linarith [h.2])]
  simp only [hp, hq, reduced_zero]
  have hL : radians (q.2 - p.2) < π := by unfold radians; nlinarith
  have hL' : (1 - f) * π + tol ≤ radians (q.2 - p.2) := by
    have e : (1 - f) * π + 1e-5 ≤ 179.4 * (π / 180) := by
      have : (1e-5 : ℝ) / 3 ≤ 179.4 / 180 - (1 - f) := by unfold f; norm_num
      nlinarith
    have : 179.4 * (π / 180) ≤ (q.2 - p.2) * (π / 180) := mul_le_mul_of_nonneg_right h0 (by positivity)
    unfold radians
    linarith
  have hf' : tol ≤ f * π := by
    have : (1e-5 : ℝ) ≤ f * 3 := by unfold f; norm_num
    have := f_pos
    nlinarith
  have hpos : 0 < radians (q.2 - p.2) := by
    have : 0 < (1 - f) * π := mul_pos one_sub_f_pos hπ
    linarith
  obtain ⟨e, he⟩ := antipode_loop hL' hL ht hf' n hpos (by linarith)
  exact ⟨e, by rw [he]⟩

example : ∃ e, distance 1852 1e-12 200 (0, 0) (0, 179.5) = .error e := by
  obtain ⟨e, he⟩ := c71_antipodal (tol := 1e-12) (0, 0) (0, 179.5) (by norm_num) (by norm_num) rfl rfl (by norm_num) (by norm_num) 1852 200
  exact ⟨e, by unfold distance; rw [he]; rfl⟩

end Verif.Geod
