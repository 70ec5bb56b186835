import Verif.Geod.Model
import Verif.Wgs.Foot

/-!
# How good the series are
-/

namespace Verif.Geod

open Real
open Verif.Wgs

theorem hstep {y c X m m' r : ℝ} (hy : 0 ≤ y) (hy' : y ≤ c) (h : |X| ≤ m) (hm : |r| + c * m ≤ m') : |r + y * X| ≤ m' := by
  have h1 : |y * X| ≤ c * m := by
    rw [abs_mul, abs_of_nonneg hy]
    exact mul_le_mul hy' h (abs_nonneg X) (le_trans hy hy')
  exact le_trans (abs_add_le _ _) (by linarith)

theorem bmul {x y m n : ℝ} (hx : |x| ≤ m) (hy : |y| ≤ n) : |x * y| ≤ m * n := by
  rw [abs_mul]; exact mul_le_mul hx hy (abs_nonneg y) (le_trans (abs_nonneg x) hx)

theorem badd {x y m n : ℝ} (hx : |x| ≤ m) (hy : |y| ≤ n) : |x + y| ≤ m + n := le_trans (abs_add_le x y) (add_le_add hx hy)

theorem bsub {x y m n : ℝ} (hx : |x| ≤ m) (hy : |y| ≤ n) : |x - y| ≤ m + n := le_trans (abs_sub x y) (add_le_add hx hy)

theorem bpow {x m : ℝ} (hx : |x| ≤ m) (n : ℕ) : |x ^ n| ≤ m ^ n := by
  rw [abs_pow]; exact pow_le_pow_left₀ (abs_nonneg x) hx n

/-! ### the length -/

theorem ser1 {y : ℝ} (hy : 0 ≤ y) (hy' : y ≤ 674 / 100000) : |bigA y ^ 2 * (1 + bigB y ^ 2 / 2) - 1 - y / 2| ≤ 6e-13 := by
  have e : bigA y ^ 2 * (1 + bigB y ^ 2 / 2) - 1 - y / 2 = y ^ 4 * ((-1 / 8192) + y * ((-435 / 32768) + y * ((-277 / 131072) + y * ((3261 / 2097152) + y * ((-281391 / 268435456) + y * ((2985 / 4194304) + y * ((311391 / 8589934592) + y * ((-944181 / 17179869184) + y * ((20308079 / 549755813888) + y * ((-19751315 / 1099511627776) + y * ((533808825 / 140737488355328) + y * ((-115108875 / 140737488355328) + y * (67650625 / 562949953421312))))))))))))) := by
    unfold bigA bigB; ring
  rw [e]
  have h := (hstep hy hy' (hstep hy hy' (hstep hy hy' (hstep hy hy' (hstep hy hy' (hstep hy hy' (hstep hy hy' (hstep hy hy' (hstep hy hy' (hstep hy hy' (hstep hy hy' (hstep hy hy' (show |((67650625 / 562949953421312) : ℝ)| ≤ (13 / 100000000) by rw [abs_le]; constructor <;> norm_num) (m' := (41 / 50000000)) (r := (-115108875 / 140737488355328)) (by norm_num [abs_of_pos, abs_of_neg])) (m' := (19 / 5000000)) (r := (533808825 / 140737488355328)) (by norm_num [abs_of_pos, abs_of_neg])) (m' := (1799 / 100000000)) (r := (-19751315 / 1099511627776)) (by norm_num [abs_of_pos, abs_of_neg])) (m' := (3707 / 100000000)) (r := (20308079 / 549755813888)) (by norm_num [abs_of_pos, abs_of_neg])) (m' := (5521 / 100000000)) (r := (-944181 / 17179869184)) (by norm_num [abs_of_pos, abs_of_neg])) (m' := (3663 / 100000000)) (r := (311391 / 8589934592)) (by norm_num [abs_of_pos, abs_of_neg])) (m' := (71193 / 100000000)) (r := (2985 / 4194304)) (by norm_num [abs_of_pos, abs_of_neg])) (m' := (105307 / 100000000)) (r := (-281391 / 268435456)) (by norm_num [abs_of_pos, abs_of_neg])) (m' := (156207 / 100000000)) (r := (3261 / 2097152)) (by norm_num [abs_of_pos, abs_of_neg])) (m' := (53097 / 25000000)) (r := (-277 / 131072)) (by norm_num [abs_of_pos, abs_of_neg])) (m' := (1328947 / 100000000)) (r := (-435 / 32768)) (by norm_num [abs_of_pos, abs_of_neg])) (m' := (4233 / 20000000)) (r := (-1 / 8192)) (by norm_num [abs_of_pos, abs_of_neg]))
  refine le_trans (bmul (bpow (show |y| ≤ 674 / 100000 by rw [abs_of_nonneg hy]; exact hy') 4) h) (by norm_num)

theorem ser2 {y : ℝ} (hy : 0 ≤ y) (hy' : y ≤ 674 / 100000) : |2 * bigA y ^ 2 * bigB y * (1 - bigB y ^ 2 / 8) - y / 2| ≤ 9e-13 := by
  have e : 2 * bigA y ^ 2 * bigB y * (1 - bigB y ^ 2 / 8) - y / 2 = y ^ 5 * ((-2041 / 32768) + y * ((427 / 65536) + y * ((-3971 / 4194304) + y * ((-1593 / 2097152) + y * ((342083 / 268435456) + y * ((-283933 / 536870912) + y * ((6253397 / 34359738368) + y * ((-7384231 / 137438953472) + y * ((61310663 / 8796093022208) + y * ((64844431 / 8796093022208) + y * ((-4720739055 / 1125899906842624) + y * ((4134583311 / 2251799813685248) + y * ((-88694670045 / 144115188075855872) + y * ((35771891525 / 288230376151711744) + y * ((-13323307375 / 576460752303423488) + y * (3179579375 / 1152921504606846976)))))))))))))))) := by
    unfold bigA bigB; ring
  rw [e]
  have h := (hstep hy hy' (hstep hy hy' (hstep hy hy' (hstep hy hy' (hstep hy hy' (hstep hy hy' (hstep hy hy' (hstep hy hy' (hstep hy hy' (hstep hy hy' (hstep hy hy' (hstep hy hy' (hstep hy hy' (hstep hy hy' (hstep hy hy' (show |((3179579375 / 1152921504606846976) : ℝ)| ≤ (1 / 100000000) by rw [abs_le]; constructor <;> norm_num) (m' := (3 / 100000000)) (r := (-13323307375 / 576460752303423488)) (by norm_num [abs_of_pos, abs_of_neg])) (m' := (13 / 100000000)) (r := (35771891525 / 288230376151711744)) (by norm_num [abs_of_pos, abs_of_neg])) (m' := (31 / 50000000)) (r := (-88694670045 / 144115188075855872)) (by norm_num [abs_of_pos, abs_of_neg])) (m' := (37 / 20000000)) (r := (4134583311 / 2251799813685248)) (by norm_num [abs_of_pos, abs_of_neg])) (m' := (421 / 100000000)) (r := (-4720739055 / 1125899906842624)) (by norm_num [abs_of_pos, abs_of_neg])) (m' := (741 / 100000000)) (r := (64844431 / 8796093022208)) (by norm_num [abs_of_pos, abs_of_neg])) (m' := (703 / 100000000)) (r := (61310663 / 8796093022208)) (by norm_num [abs_of_pos, abs_of_neg])) (m' := (2689 / 50000000)) (r := (-7384231 / 137438953472)) (by norm_num [abs_of_pos, abs_of_neg])) (m' := (18237 / 100000000)) (r := (6253397 / 34359738368)) (by norm_num [abs_of_pos, abs_of_neg])) (m' := (5301 / 10000000)) (r := (-283933 / 536870912)) (by norm_num [abs_of_pos, abs_of_neg])) (m' := (63897 / 50000000)) (r := (342083 / 268435456)) (by norm_num [abs_of_pos, abs_of_neg])) (m' := (38411 / 50000000)) (r := (-1593 / 2097152)) (by norm_num [abs_of_pos, abs_of_neg])) (m' := (47597 / 50000000)) (r := (-3971 / 4194304)) (by norm_num [abs_of_pos, abs_of_neg])) (m' := (20381 / 3125000)) (r := (427 / 65536)) (by norm_num [abs_of_pos, abs_of_neg])) (m' := (3116517 / 50000000)) (r := (-2041 / 32768)) (by norm_num [abs_of_pos, abs_of_neg]))
  refine le_trans (bmul (bpow (show |y| ≤ 674 / 100000 by rw [abs_of_nonneg hy]; exact hy') 5) h) (by norm_num)

theorem A_bd {y : ℝ} (hy : 0 ≤ y) (hy' : y ≤ 674 / 100000) : 1 ≤ bigA y ∧ bigA y ≤ 1.002 := by
  unfold bigA
  have i1 : 0 ≤ y * (320 - 175 * y) := mul_nonneg hy (by linarith)
  have i2 : y * (320 - 175 * y) ≤ 768 := by nlinarith
  have i3 : 0 ≤ y * (768 - y * (320 - 175 * y)) := mul_nonneg hy (by linarith)
  have i4 : y * (768 - y * (320 - 175 * y)) ≤ 1 * 768 := mul_le_mul (by linarith) (by linarith) (by linarith) (by norm_num)
  have h1 : 0 ≤ 4096 + y * (-768 + y * (320 - 175 * y)) := by linarith
  have h2 : 4096 + y * (-768 + y * (320 - 175 * y)) ≤ 4096 := by linarith
  constructor
  · have := mul_nonneg (div_nonneg hy (by norm_num : (0 : ℝ) ≤ 16384)) h1
    linarith
  · have := mul_le_mul_of_nonneg_left h2 (div_nonneg hy (by norm_num : (0 : ℝ) ≤ 16384))
    linarith

theorem B_bd {y : ℝ} (hy : 0 ≤ y) (hy' : y ≤ 674 / 100000) : 0 ≤ bigB y ∧ bigB y ≤ 0.001685 := by
  unfold bigB
  have i1 : 0 ≤ y * (74 - 47 * y) := mul_nonneg hy (by linarith)
  have i2 : y * (74 - 47 * y) ≤ 128 := by nlinarith
  have i3 : 0 ≤ y * (128 - y * (74 - 47 * y)) := mul_nonneg hy (by linarith)
  have i4 : y * (128 - y * (74 - 47 * y)) ≤ 1 * 128 := mul_le_mul (by linarith) (by linarith) (by linarith) (by norm_num)
  have h1 : 0 ≤ 256 + y * (-128 + y * (74 - 47 * y)) := by linarith
  have h2 : 256 + y * (-128 + y * (74 - 47 * y)) ≤ 256 := by linarith
  constructor
  · exact mul_nonneg (div_nonneg hy (by norm_num : (0 : ℝ) ≤ 1024)) h1
  · have := mul_le_mul_of_nonneg_left h2 (div_nonneg hy (by norm_num : (0 : ℝ) ≤ 1024))
    linarith

/-- The derivative of the series is the speed. -/
theorem speed_bd {y c : ℝ} (hy : 0 ≤ y) (hy' : y ≤ 674 / 100000) (hc : |c| ≤ 1) :
    |bigA y * (1 - bigB y * c - bigB y ^ 2 / 4 * (2 * c ^ 2 - 1) - bigB y ^ 3 / 8 * (4 * c ^ 3 - 3 * c)) - √(1 + y * ((1 - c) / 2))| ≤ 5e-12 := by
  obtain ⟨hA1, hA2⟩ := A_bd hy hy'
  obtain ⟨hB0, hB1⟩ := B_bd hy hy'
  have s1 := ser1 hy hy'
  have s2 := ser2 hy hy'
  have hAabs : |bigA y| ≤ 1.002 := by rw [abs_of_nonneg (by linarith)]; exact hA2
  have hBabs : |bigB y| ≤ 0.001685 := by rw [abs_of_nonneg hB0]; exact hB1
  generalize bigA y = A at *
  generalize bigB y = B at *
  have hc' := abs_le.mp hc
  have hc4 : |2 * c ^ 2 - 1| ≤ 1 := by rw [abs_le]; constructor <;> nlinarith
  have hc6 : |4 * c ^ 3 - 3 * c| ≤ 1 := by
    rw [abs_le]
    constructor
    · nlinarith [mul_nonneg (by linarith [hc'.1] : 0 ≤ 1 + c) (sq_nonneg (2 * c - 1))]
    · nlinarith [mul_nonneg (by linarith [hc'.2] : 0 ≤ 1 - c) (sq_nonneg (2 * c + 1))]
  generalize h4 : 2 * c ^ 2 - 1 = c4 at *
  generalize h6 : 4 * c ^ 3 - 3 * c = c6 at *
  set p := A * (1 - B * c - B ^ 2 / 4 * c4 - B ^ 3 / 8 * c6) with hp
  have hz : 0 ≤ 1 + y * ((1 - c) / 2) := by nlinarith [hc'.2]
  have hsq := sq_sqrt hz
  have hz1 : 1 ≤ √(1 + y * ((1 - c) / 2)) := by
    rw [one_le_sqrt]; nlinarith [hc'.2]
  have e : p ^ 2 - (1 + y * ((1 - c) / 2)) = (A ^ 2 * (1 + B ^ 2 / 2) - 1 - y / 2) - c * (2 * A ^ 2 * B * (1 - B ^ 2 / 8) - y / 2) +
      A ^ 2 * (B ^ 4 * (c4 ^ 2 / 16 + c * c6 / 4 + B * (c4 * c6 / 16 + B * (c6 ^ 2 / 64)))) := by
    rw [hp, ← h4, ← h6]; ring
  have hrest : |c4 ^ 2 / 16 + c * c6 / 4 + B * (c4 * c6 / 16 + B * (c6 ^ 2 / 64))| ≤ 0.3127 := by
    have b1 : |c4 ^ 2 / 16| ≤ 1 / 16 := by rw [abs_div, abs_of_pos (by norm_num : (0 : ℝ) < 16)]; have := bpow hc4 2; linarith
    have b2 : |c * c6 / 4| ≤ 1 / 4 := by rw [abs_div, abs_of_pos (by norm_num : (0 : ℝ) < 4)]; have := bmul hc hc6; linarith
    have b3 : |c4 * c6 / 16| ≤ 1 / 16 := by rw [abs_div, abs_of_pos (by norm_num : (0 : ℝ) < 16)]; have := bmul hc4 hc6; linarith
    have b4 : |c6 ^ 2 / 64| ≤ 1 / 64 := by rw [abs_div, abs_of_pos (by norm_num : (0 : ℝ) < 64)]; have := bpow hc6 2; linarith
    refine le_trans (badd (badd b1 b2) (bmul hBabs (badd b3 (bmul hBabs b4)))) (by norm_num)
  have hbd : |p ^ 2 - (1 + y * ((1 - c) / 2))| ≤ 5e-12 := by
    rw [e]
    refine le_trans (badd (bsub s1 (bmul hc s2)) (bmul (bpow hAabs 2) (bmul (bpow hBabs 4) hrest))) (by norm_num)
  have hp0 : 0 ≤ p := by
    apply mul_nonneg (by linarith)
    have b1 := abs_le.mp (bmul hBabs hc)
    have b2 := abs_le.mp (bmul (bpow hBabs 2) hc4)
    have b3 := abs_le.mp (bmul (bpow hBabs 3) hc6)
    norm_num at b1 b2 b3
    linarith [b1.2, b2.2, b3.2]
  generalize √(1 + y * ((1 - c) / 2)) = z at *
  rw [← hsq] at hbd
  have : |p - z| * (p + z) ≤ 5e-12 := by
    have h := hbd
    rwa [show p ^ 2 - z ^ 2 = (p - z) * (p + z) by ring, abs_mul, abs_of_nonneg (by linarith : 0 ≤ p + z)] at h
  nlinarith [abs_nonneg (p - z)]

/-! ### the turning -/

theorem lead_bd {t q : ℝ} (ht : 0 ≤ t) (htq : t ≤ q) (hq : q ≤ 1) :
    |-t + t ^ 2 / 4 - 5 / 4 * t ^ 3 + 3 / 2 * q * t + q ^ 3 / 32 - 11 / 8 * q ^ 2 * t + 7 / 4 * q * t ^ 2| ≤ 1 / 2 := by
  have hq0 : 0 ≤ q := le_trans ht htq
  rw [abs_le]
  constructor
  · nlinarith [mul_nonneg ht hq0, mul_nonneg ht (sq_nonneg (q - t)), mul_nonneg ht (sub_nonneg.mpr hq), mul_nonneg (mul_nonneg ht hq0) (sub_nonneg.mpr hq),
      mul_nonneg (mul_nonneg ht ht) (sub_nonneg.mpr htq), sq_nonneg (2 * q - 1), mul_nonneg ht (sq_nonneg (2 * q - 1)), mul_nonneg hq0 (sq_nonneg (q - 2 * t)), pow_nonneg hq0 3]
  · nlinarith [mul_nonneg ht hq0, mul_nonneg ht (sq_nonneg (q - t)), mul_nonneg ht (sub_nonneg.mpr hq), mul_nonneg (mul_nonneg ht hq0) (sub_nonneg.mpr hq),
      mul_nonneg (mul_nonneg ht ht) (sub_nonneg.mpr htq), sq_nonneg (2 * q - 1), mul_nonneg ht (sq_nonneg (2 * q - 1)), mul_nonneg hq0 (sq_nonneg (q - 2 * t)), pow_nonneg hq0 3,
      mul_nonneg (mul_nonneg ht ht) (sub_nonneg.mpr hq), sq_nonneg (t - 1)]

theorem C_bd {q : ℝ} (hq : 0 ≤ q) (hq' : q ≤ 1) : 0 ≤ bigC q ∧ bigC q ≤ f * 0.251 := by
  unfold bigC
  have hf := f_pos
  have hf' := f_lt
  have h0 : 0 ≤ 4 + f * (4 - 3 * q) := by nlinarith
  have h1 : 4 + f * (4 - 3 * q) ≤ 4.014 := by nlinarith
  constructor
  · positivity
  · have : q * (4 + f * (4 - 3 * q)) ≤ 1 * 4.014 := mul_le_mul hq' h1 h0 (by norm_num)
    nlinarith

theorem E_bd {s : ℝ} (hs : 0 ≤ s) (hs' : s ≤ 1) : |-2 * s * (3 - 4 * s)| ≤ 2 := by
  rw [abs_le]; constructor <;> nlinarith [mul_nonneg hs (sub_nonneg.mpr hs'), sq_nonneg (8 * s - 3)]

theorem c4_bd {s : ℝ} (hs : 0 ≤ s) (hs' : s ≤ 1) : |2 * (1 - 2 * s) ^ 2 - 1| ≤ 1 := by
  rw [abs_le]; constructor <;> nlinarith [mul_nonneg hs (sub_nonneg.mpr hs'), sq_nonneg (1 - 2 * s)]

theorem eta_bd {q : ℝ} (hq : 0 ≤ q) (hq' : q ≤ 1) : 0 ≤ q * (4 - 3 * q) / 16 ∧ |q * (4 - 3 * q) / 16| ≤ 1 / 12 := by
  have h0 : 0 ≤ q * (4 - 3 * q) / 16 := div_nonneg (mul_nonneg hq (by linarith)) (by norm_num)
  refine ⟨h0, ?_⟩
  rw [abs_of_nonneg h0]
  nlinarith [sq_nonneg (3 * q - 2)]

/-- The derivative of the correction of the longitude is the rate of turning. -/
theorem turn_bd {q s : ℝ} (hq : 0 ≤ q) (hq' : q ≤ 1) (hs : 0 ≤ s) (hs' : s ≤ 1) :
    |(1 - bigC q) * f * (1 + bigC q * (1 - 2 * s) + bigC q ^ 2 * (2 * (1 - 2 * s) ^ 2 - 1)) - e2 / (1 + √(1 - e2 * (1 - q * s)))| ≤ 4e-11 := by
  have hf := f_pos
  have hf' := f_lt
  have he := e2_pos
  have he' := e2_lt
  have hqs : q * s ≤ q := by nlinarith
  have hqs0 : 0 ≤ q * s := mul_nonneg hq hs
  obtain ⟨hC0, hC1⟩ := C_bd hq hq'
  have hfabs : |f| ≤ 1 / 298 := by rw [abs_of_pos hf]; exact hf'.le
  -- the polynomial of which the rate of turning is a root
  set D0 := (1 - bigC q) * f * (1 + bigC q * (1 - 2 * s) + bigC q ^ 2 * (2 * (1 - 2 * s) ^ 2 - 1)) with hD0
  set W := √(1 - e2 * (1 - q * s)) with hW
  have hWarg : 0 ≤ 1 - e2 * (1 - q * s) := by nlinarith
  have hWsq : W ^ 2 = 1 - e2 * (1 - q * s) := sq_sqrt hWarg
  have hW0 : 0 ≤ W := sqrt_nonneg _
  have h1W : 1 + W ≠ 0 := by positivity
  set d := e2 / (1 + W) with hd
  have hdW : d * (1 + W) = e2 := div_mul_cancel₀ _ h1W
  have hd0 : 0 ≤ d := div_nonneg he.le (by positivity)
  have hd1 : d ≤ e2 := by nlinarith
  have hPd : d ^ 2 * (1 - q * s) - 2 * d + e2 = 0 := by
    have hdr : d * (1 - q * s) = 1 - W := by
      apply mul_right_cancel₀ h1W
      linear_combination (1 - q * s) * hdW + hWsq
    linear_combination d * hdr - hdW
  set η := q * (4 - 3 * q) / 16 with hη
  set κ := q / 4 + f * η with hκ
  have hC : bigC q = f * κ := by unfold bigC; rw [hκ, hη]; ring
  have hη0 : 0 ≤ η := (eta_bd hq hq').1
  have hη1 : |η| ≤ 1 / 12 := (eta_bd hq hq').2
  have hκ1 : |κ| ≤ 0.251 := by
    rw [hC] at hC1 hC0
    have k0 : 0 ≤ κ := by rw [hκ]; positivity
    rw [abs_of_nonneg k0]
    exact le_of_mul_le_mul_left hC1 hf
  have hqabs : |q| ≤ 1 := by rw [abs_of_nonneg hq]; exact hq'
  have hq4 : |q / 4| ≤ 1 / 4 := by rw [abs_of_nonneg (by positivity)]; linarith
  have hρ : |1 - q * s| ≤ 1 := by rw [abs_of_nonneg (by linarith)]; linarith
  set D := -2 * s with hD
  set E := -2 * s * (3 - 4 * s) with hE
  set c4 := 2 * (1 - 2 * s) ^ 2 - 1 with hc4
  have bD : |D| ≤ 2 := by rw [hD, abs_le]; constructor <;> linarith
  have bE : |E| ≤ 2 := E_bd hs hs'
  have bc4 : |c4| ≤ 1 := c4_bd hs hs'
  have e : D0 ^ 2 * (1 - q * s) - 2 * D0 + e2 = f ^ 4 * ((-(q * s) + (q * s) ^ 2 / 4 - 5 / 4 * (q * s) ^ 3 + 3 / 2 * q * (q * s) + q ^ 3 / 32 - 11 / 8 * q ^ 2 * (q * s) + 7 / 4 * q * (q * s) ^ 2)
      + f * ((1 - q * s) * (D ^ 2 + 2 * E) * (κ + q / 4) * η + 2 * c4 * (κ ^ 2 + κ * (q / 4) + (q / 4) ^ 2) * η - 2 * E * η ^ 2
        + (1 - q * s) * ((2 * D * E - 2 * c4) * κ ^ 3 + f * ((E ^ 2 - 2 * D * c4) * κ ^ 4 + f * (f * (c4 ^ 2 * κ ^ 6) - 2 * E * c4 * κ ^ 5))))) := by
    rw [hD0, hC, hκ, hη, hD, hE, hc4]
    unfold e2
    ring
  have bR := lead_bd hqs0 hqs hq'
  have bD2 : |D ^ 2 + 2 * E| ≤ 8 := le_trans (badd (bpow bD 2) (bmul (show |(2 : ℝ)| ≤ 2 by norm_num) bE)) (by norm_num)
  have two : |(2 : ℝ)| ≤ 2 := by norm_num
  have bRest : |(1 - q * s) * (D ^ 2 + 2 * E) * (κ + q / 4) * η + 2 * c4 * (κ ^ 2 + κ * (q / 4) + (q / 4) ^ 2) * η - 2 * E * η ^ 2
        + (1 - q * s) * ((2 * D * E - 2 * c4) * κ ^ 3 + f * ((E ^ 2 - 2 * D * c4) * κ ^ 4 + f * (f * (c4 ^ 2 * κ ^ 6) - 2 * E * c4 * κ ^ 5)))| ≤ 1 := by
    refine le_trans (badd (bsub (badd (bmul (bmul (bmul hρ bD2) (badd hκ1 hq4)) hη1)
      (bmul (bmul (bmul two bc4) (badd (badd (bpow hκ1 2) (bmul hκ1 hq4)) (bpow hq4 2))) hη1)) (bmul (bmul two bE) (bpow hη1 2)))
      (bmul hρ (badd (bmul (bsub (bmul (bmul two bD) bE) (bmul two bc4)) (bpow hκ1 3))
        (bmul hfabs (badd (bmul (bsub (bpow bE 2) (bmul (bmul two bD) bc4)) (bpow hκ1 4))
          (bmul hfabs (bsub (bmul hfabs (bmul (bpow bc4 2) (bpow hκ1 6))) (bmul (bmul (bmul two bE) bc4) (bpow hκ1 5))))))))) (by norm_num)
  have hP : |D0 ^ 2 * (1 - q * s) - 2 * D0 + e2| ≤ 6.4e-11 := by
    rw [e]
    refine le_trans (bmul (bpow hfabs 4) (badd bR (bmul hfabs bRest))) (by norm_num)
  have hD0abs : |D0| ≤ 0.004 := by
    rw [hD0]
    have hCabs : |bigC q| ≤ 0.001 := by rw [abs_of_nonneg hC0]; linarith
    have hc1 : |1 - 2 * s| ≤ 1 := by rw [abs_le]; constructor <;> linarith
    have one : |(1 : ℝ)| ≤ 1 := by norm_num
    refine le_trans (bmul (bmul (bsub one hCabs) hfabs) (badd (badd one (bmul hCabs hc1)) (bmul (bpow hCabs 2) bc4))) (by norm_num)
  have hfac : (D0 - d) * (2 - (D0 + d) * (1 - q * s)) = -(D0 ^ 2 * (1 - q * s) - 2 * D0 + e2) := by linear_combination hPd
  have hden : 1.98 ≤ 2 - (D0 + d) * (1 - q * s) := by
    have := abs_le.mp (bmul (badd hD0abs (show |d| ≤ 1 / 149 by rw [abs_of_nonneg hd0]; linarith)) hρ)
    linarith [this.2]
  have h := congrArg abs hfac
  rw [abs_mul, abs_neg, abs_of_nonneg (by linarith : 0 ≤ 2 - (D0 + d) * (1 - q * s))] at h
  have h2 : |D0 - d| * 1.98 ≤ 6.4e-11 := le_trans (mul_le_mul_of_nonneg_left hden (abs_nonneg _)) (by rw [h]; exact hP)
  linarith

end Verif.Geod
