import Verif.Geod.Inverse
import Mathlib.Analysis.Real.Pi.Bounds

/-!
# C71, distances and bearings
-/

namespace Verif.Geod

open Real
open Verif.Wgs
open Verif.Globe (LL E3 Err radians degrees atan2 pmod vec heading ext3 rad_eq atan2_cos_sin atan2_polar radians_pmod)

theorem length_bd {cu su ca sa : ℝ} (A : Ang cu su ca sa) {T : ℝ} (h : 0 ≤ T) :
    0 ≤ length (fun t => a * w cu su ca t) T ∧ length (fun t => a * w cu su ca t) T ≤ T * a := by
  have hw1 : ∀ t, w cu su ca t ≤ 1 := fun t => by
    unfold w
    apply sqrt_le_one.mpr
    have := A.g3_le t
    have := e2_pos
    nlinarith
  have ha := a_pos
  have hcont : Continuous (fun t => a * w cu su ca t) := continuous_const.mul A.cont_w
  constructor
  · exact intervalIntegral.integral_nonneg h fun t _ => mul_nonneg ha.le (A.w_pos t).le
  · have := intervalIntegral.integral_mono_on (μ := MeasureTheory.volume) h (hcont.intervalIntegrable 0 T) (continuous_const.intervalIntegrable 0 T) (g := fun _ => a)
      (fun t _ => by have := hw1 t; nlinarith)
    simpa [length] using this

theorem pmod_range (x : ℝ) : 0 ≤ pmod x 360 ∧ pmod x 360 < 360 := by
  unfold pmod
  have h1 := Int.floor_le (x / 360)
  have h2 := Int.lt_floor_add_one (x / 360)
  constructor <;> linarith

/-- Distances are not negative. -/
theorem distBearing_nonneg {k tol : ℝ} {n : ℕ} {p q : LL} {d β : ℝ} (hk : 0 < k) (h : distBearing k tol n p q = .ok (d, β)) : 0 ≤ d := by
  unfold distBearing at h
  by_cases he : p.1 = q.1 ∧ p.2 = q.2
  · rw [if_pos he] at h
    injection h with h
    injection h with h1 h2
    exact h1.le
  rw [if_neg he] at h
  simp only at h
  cases hl : invLoop (reduced p.1) (reduced q.1) (radians (q.2 - p.2)) tol n (radians (q.2 - p.2)) with
  | error e => rw [hl] at h; cases h
  | ok it =>
    rw [hl] at h
    simp only at h
    injection h with h
    obtain ⟨l, hs, hc⟩ := invLoop_step hl
    obtain ⟨ca, sa, x1, σ, G⟩ := invStep_good hs
    unfold finish at h
    simp only at h
    injection h with h1 h2
    rw [← h1, G.len, G.cosSqA]
    have hy := uSq_bd G.A.q_bd.1 G.A.q_bd.2
    have hA := A_bd hy.1 hy.2
    have hB := B_bd hy.1 hy.2
    have hcon := contraction hB.1 hB.2 x1 σ 0
    have h0 : deltaSigma (bigB (uSq (1 - (cos (reduced p.1) * sa) ^ 2))) (sin 0) (cos 0) (cos (2 * x1 + 0)) = 0 := by simp [deltaSigma]
    rw [h0, sub_zero, sub_zero, abs_of_nonneg G.lo] at hcon
    have h2 := (abs_le.1 hcon).2
    refine div_nonneg ?_ hk.le
    unfold round6
    refine div_nonneg ?_ (by norm_num)
    have : 0 ≤ b * bigA (uSq (1 - (cos (reduced p.1) * sa) ^ 2)) *
        (σ - deltaSigma (bigB (uSq (1 - (cos (reduced p.1) * sa) ^ 2))) (sin σ) (cos σ) (cos (2 * x1 + σ))) * 1000000 := by
      have hb0 := b_pos
      have := G.lo
      refine mul_nonneg (mul_nonneg (mul_nonneg hb0.le (by linarith [hA.1])) ?_) (by norm_num)
      norm_num at h2
      linarith
    rw [round_eq]
    exact_mod_cast Int.floor_nonneg.2 (by linarith)

/-- What is known of a distance and a bearing. -/
theorem inverse_core {k tol : ℝ} {n : ℕ} {p q : LL} {d β : ℝ} (hk : 0 < k) (ht : 0 < tol) (hp : Lat p) (hq : Lat q)
    (h : distBearing k tol n p q = .ok (d, β)) :
    ∃ T, 0 ≤ T ∧ T ≤ π ∧ 0 ≤ d ∧ |d * k - length (lineSpeed p β) T| ≤ 0.00011 ∧ dist (line p β T) (ground q) ≤ 0.00081 + a * tol := by
  have ha := a_pos
  have h₀ := h
  unfold distBearing at h
  by_cases he : p.1 = q.1 ∧ p.2 = q.2
  · rw [if_pos he] at h
    injection h with h
    injection h with h1 h2
    have hpq : p = q := Prod.ext he.1 he.2
    subst hpq
    subst h1 h2
    refine ⟨0, le_rfl, pi_pos.le, le_rfl, ?_, ?_⟩
    · simp [length]; norm_num
    · unfold line; rw [gam_zero hp, dist_self]; positivity
  rw [if_neg he] at h
  simp only at h
  cases hl : invLoop (reduced p.1) (reduced q.1) (radians (q.2 - p.2)) tol n (radians (q.2 - p.2)) with
  | error e => rw [hl] at h; cases h
  | ok it =>
    rw [hl] at h
    simp only at h
    injection h with h
    obtain ⟨l, hs, hc⟩ := invLoop_step hl
    obtain ⟨ca, sa, x1, σ, G⟩ := invStep_good hs
    unfold finish at h
    simp only at h
    injection h with h1 h2
    have haz := azimuth G
    rw [h2] at haz
    have hb : b ≤ 6356753 := by unfold b a f; norm_num
    have hab : a = 6378137 := rfl
    have hπ := pi_lt_d4
    refine ⟨σ, G.lo, G.hi, distBearing_nonneg hk h₀, ?_, ?_⟩
    · have hd : d * k = round6 (b * bigA (uSq (1 - (cos (reduced p.1) * sa) ^ 2)) *
          (σ - deltaSigma (bigB (uSq (1 - (cos (reduced p.1) * sa) ^ 2))) (sin σ) (cos σ) (cos (2 * x1 + σ)))) := by
        rw [← h1, G.len, G.cosSqA]; field_simp
      have hr := round6_bd (b * bigA (uSq (1 - (cos (reduced p.1) * sa) ^ 2)) *
          (σ - deltaSigma (bigB (uSq (1 - (cos (reduced p.1) * sa) ^ 2))) (sin σ) (cos σ) (cos (2 * x1 + σ))))
      rw [← hd] at hr
      have hlen := len_bd G.N G.A σ
      unfold lineSpeed
      rw [haz.1]
      rw [abs_of_nonneg G.lo] at hlen
      have hσ : b * 5e-12 * σ ≤ 0.0001 := by
        have h0 := G.lo
        have h1 := G.hi
        have hb0 := b_pos
        have : b * σ ≤ 6356753 * 3.1416 := mul_le_mul hb (by linarith) h0 (by norm_num)
        norm_num
        linarith
      rw [abs_le] at hr hlen ⊢
      norm_num at hr hσ ⊢
      constructor <;> linarith [hr.1, hr.2, hlen.1, hlen.2]
    · unfold line
      rw [haz.1, haz.2, G.gam, ground_eq hq]
      have hc0 : 0 ≤ cos (reduced q.1) := by rw [red_cos hq]; exact div_nonneg (cos_lat hq) (om_pos _).le
      refine (chord (mul_nonneg ha.le hc0)).trans ?_
      have hd := delta_bd G.N G.A σ
      rw [abs_of_nonneg G.lo] at hd
      have hn := G.next
      have hrad : radians (q.2 - p.2) = radians q.2 - radians p.2 := by unfold radians; ring
      have hang : |radians p.2 + l - delta (cos (reduced p.1)) (sin (reduced p.1)) ca sa σ - radians q.2| ≤ tol + 4e-11 * σ := by
        rw [hn, hrad, abs_lt] at hc
        rw [abs_le] at hd ⊢
        constructor <;> linarith [hc.1, hc.2, hd.1, hd.2]
      have hσ : a * (4e-11 * σ) ≤ 0.00081 := by
        rw [hab]; have := G.hi; norm_num; linarith
      calc a * cos (reduced q.1) * |radians p.2 + l - delta (cos (reduced p.1)) (sin (reduced p.1)) ca sa σ - radians q.2|
          ≤ a * 1 * (tol + 4e-11 * σ) := by
            apply mul_le_mul _ hang (abs_nonneg _) (by positivity)
            exact mul_le_mul_of_nonneg_left (cos_le_one _) ha.le
        _ ≤ _ := by linarith

/-- **C71.** What `distance_and_bearing` returns is the length and the first direction of a geodesic from the first place to the second: the
length is exact to a ninth of a millimetre, and the geodesic that leaves in that direction ends less than a millimetre (and the tolerance
asked for) from the second place, after no more than half a turn. -/
theorem c71_inverse {k tol : ℝ} {n : ℕ} {p q : LL} {d β : ℝ} (hk : 0 < k) (ht : 0 < tol) (hp : Lat p) (hq : Lat q)
    (h : distBearing k tol n p q = .ok (d, β)) :
    ∃ s y, Leads (ground p) (heading p β) s y ∧ 0 ≤ s ∧ s ≤ π * a ∧ |d * k - s| ≤ 0.00011 ∧ dist y (ground q) ≤ 0.00081 + a * tol := by
  obtain ⟨T, h0, h1, -, h3, h4⟩ := inverse_core hk ht hp hq h
  have hl := length_bd (ang (reduced p.1) (radians β)) h0
  exact ⟨_, _, leads hp β T, hl.1, hl.2.trans (mul_le_mul_of_nonneg_right h1 a_pos.le), h3, h4⟩

/-- Neither at the same pole nor at opposite ones. -/
theorem sin_between {p q : LL} (hp : Lat p) (hq : Lat q) : sin (reduced q.1 - reduced p.1) =
    (1 - f) * sin (radians q.1 - radians p.1) / (om (radians p.1) * om (radians q.1)) := by
  rw [sin_sub, sin_sub, red_cos hp, red_cos hq, red_sin hp, red_sin hq]
  have := om_pos (radians p.1)
  have := om_pos (radians q.1)
  field_simp

theorem sin_between_pos {p q : LL} (hp : Lat p) (hq : Lat q) (h : p.1 < q.1) (h' : q.1 - p.1 < 180) : 0 < sin (reduced q.1 - reduced p.1) := by
  rw [sin_between hp hq]
  have h1 := om_pos (radians p.1)
  have h2 := om_pos (radians q.1)
  have hf := one_sub_f_pos
  have hs : 0 < sin (radians q.1 - radians p.1) := by
    have hπ := pi_pos
    apply sin_pos_of_pos_of_lt_pi <;> unfold radians <;> nlinarith
  positivity

theorem meridian_step {u1 u2 : ℝ} (h : sin (u2 - u1) ≠ 0) : ∃ it, invStep u1 u2 0 0 = .ok it ∧ it.next = 0 ∧ it.sinL = 0 ∧ it.cosL = 1 := by
  have hS : √((cos u2 * sin 0) ^ 2 + (cos u1 * sin u2 - sin u1 * cos u2 * cos 0) ^ 2) ≠ 0 := by
    have e : (cos u2 * sin 0) ^ 2 + (cos u1 * sin u2 - sin u1 * cos u2 * cos 0) ^ 2 = sin (u2 - u1) ^ 2 := by
      rw [sin_sub]; simp; ring
    rw [e]
    exact (sqrt_pos.mpr (by positivity)).ne'
  unfold invStep
  simp only [if_neg hS]
  refine ⟨_, rfl, ?_, ?_, ?_⟩ <;> simp

/-- The result on a meridian. -/
theorem meridian {k tol : ℝ} {n : ℕ} {p q : LL} (ht : 0 < tol) (hn : n ≠ 0) (hs : sin (reduced q.1 - reduced p.1) ≠ 0) (hne : p.1 ≠ q.1)
    (hlon : p.2 = q.2) : ∃ d, distBearing k tol n p q = .ok (d, pmod (degrees (atan2 0 (sin (reduced q.1 - reduced p.1)))) 360) := by
  unfold distBearing
  rw [if_neg (fun h => hne h.1)]
  have hL : radians (q.2 - p.2) = 0 := by rw [hlon]; simp [radians]
  obtain ⟨it, h1, h2, h3, h4⟩ := meridian_step hs
  obtain ⟨m, rfl⟩ := Nat.exists_eq_succ_of_ne_zero hn
  simp only [hL]
  unfold invLoop
  rw [h1]
  simp only [h2, sub_zero, abs_zero, if_pos ht]
  unfold finish
  simp only [h3, h4, mul_zero, mul_one]
  rw [sin_sub, mul_comm (cos (reduced p.1)), mul_comm (sin (reduced p.1))]
  exact ⟨_, rfl⟩

/-- **C71.** Northwards the bearing is 0 and southwards 180; the answer comes at once. -/
theorem c71_north {k tol : ℝ} {n : ℕ} {p q : LL} (ht : 0 < tol) (hn : n ≠ 0) (hp : Lat p) (hq : Lat q) (hlon : p.2 = q.2)
    (h : p.1 < q.1) (h' : q.1 - p.1 < 180) :
    (∃ d, distBearing k tol n p q = .ok (d, 0)) ∧ ∃ d, distBearing k tol n q p = .ok (d, 180) := by
  have hs := sin_between_pos hp hq h h'
  constructor
  · obtain ⟨d, hd⟩ := meridian (k := k) ht hn hs.ne' h.ne hlon
    refine ⟨d, ?_⟩
    rw [hd]
    have := atan2_polar hs (neg_lt_zero.mpr pi_pos) pi_pos.le
    simp only [sin_zero, cos_zero, mul_zero, mul_one] at this
    rw [this]
    simp [degrees, pmod]
  · have hs' : sin (reduced p.1 - reduced q.1) = -sin (reduced q.1 - reduced p.1) := by rw [← sin_neg]; congr 1; ring
    have hne : sin (reduced p.1 - reduced q.1) ≠ 0 := by rw [hs']; exact neg_ne_zero.mpr hs.ne'
    obtain ⟨d, hd⟩ := meridian (k := k) ht hn hne h.ne' hlon.symm
    refine ⟨d, ?_⟩
    rw [hd, hs']
    have := atan2_polar hs (by linarith [pi_pos]) le_rfl
    simp only [sin_pi, cos_pi, mul_zero, mul_neg, mul_one] at this
    rw [this]
    have e : degrees π = 180 := by unfold degrees; field_simp
    rw [e]
    have : ⌊(180 : ℝ) / 360⌋ = 0 := by rw [Int.floor_eq_zero_iff]; norm_num
    simp [pmod, this]

/-- **C71.** A place is no distance from itself. -/
theorem c71_same (k tol : ℝ) (n : ℕ) (p : LL) : distBearing k tol n p p = .ok (0, 0) := by
  unfold distBearing
  rw [if_pos ⟨rfl, rfl⟩]

/-- **C71.** Bearings are between 0 and 360 degrees. -/
theorem c71_bearing {k tol : ℝ} {n : ℕ} {p q : LL} {d β : ℝ} (h : distBearing k tol n p q = .ok (d, β)) : 0 ≤ β ∧ β < 360 := by
  unfold distBearing at h
  split at h
  · injection h with h; injection h with h1 h2; subst h2; norm_num
  · simp only at h
    split at h
    · cases h
    · injection h with h
      unfold finish at h
      simp only at h
      injection h with h1 h2
      subst h2
      exact pmod_range _

/-! ### The way back is as long -/

theorem sinS_symm (u1 u2 l : ℝ) : √((cos u1 * sin (-l)) ^ 2 + (cos u2 * sin u1 - sin u2 * cos u1 * cos (-l)) ^ 2) =
    √((cos u2 * sin l) ^ 2 + (cos u1 * sin u2 - sin u1 * cos u2 * cos l) ^ 2) := by
  congr 1
  have h1 := sides u1 u2 l
  have h2 := sides u2 u1 (-l)
  rw [cos_neg] at h2 ⊢
  nlinarith

theorem invStep_symm (u1 u2 L l : ℝ) : invStep u2 u1 (-L) (-l) = (invStep u1 u2 L l).map fun it =>
    { it with sinL := -it.sinL, sinA := -it.sinA, next := -it.next } := by
  unfold invStep
  simp only [sinS_symm]
  split
  · rfl
  · simp only [Except.map, sin_neg, cos_neg]
    have hS : sin u2 * sin u1 + cos u2 * cos u1 * cos l = sin u1 * sin u2 + cos u1 * cos u2 * cos l := by ring
    have hA : ∀ S : ℝ, cos u2 * cos u1 * -sin l / S = -(cos u1 * cos u2 * sin l / S) := fun S => by ring
    have hm : 2 * sin u2 * sin u1 = 2 * sin u1 * sin u2 := by ring
    simp only [hS, hA, hm, neg_sq]
    congr 2
    ring

theorem invLoop_symm (u1 u2 L tol : ℝ) (n : ℕ) (l : ℝ) : invLoop u2 u1 (-L) tol n (-l) = (invLoop u1 u2 L tol n l).map fun it =>
    { it with sinL := -it.sinL, sinA := -it.sinA, next := -it.next } := by
  induction n generalizing l with
  | zero => rfl
  | succ n ih =>
    unfold invLoop
    rw [invStep_symm]
    cases hs : invStep u1 u2 L l with
    | error e => rfl
    | ok it =>
      simp only [Except.map]
      have : |(-it.next) - (-l)| = |it.next - l| := by rw [← abs_neg]; congr 1; ring
      rw [this]
      split
      · rfl
      · exact ih it.next

/-- **C71.** The distance back is the distance there, and one fails exactly when the other does. -/
theorem c71_symmetric (k tol : ℝ) (n : ℕ) (p q : LL) : distance k tol n p q = distance k tol n q p := by
  unfold distance distBearing
  by_cases h : p.1 = q.1 ∧ p.2 = q.2
  · rw [if_pos h, if_pos ⟨h.1.symm, h.2.symm⟩]
  · rw [if_neg h, if_neg (fun h' => h ⟨h'.1.symm, h'.2.symm⟩)]
    have hL : radians (p.2 - q.2) = -radians (q.2 - p.2) := by unfold radians; ring
    simp only [hL, invLoop_symm]
    cases invLoop (reduced p.1) (reduced q.1) (radians (q.2 - p.2)) tol n (radians (q.2 - p.2)) with
    | error e => rfl
    | ok it => rfl

end Verif.Geod
