import Verif.Geod.Equator
import Verif.Geod.Lines

/-! # Both ways along the equator: distances, bearings and destinations -/

namespace Verif.Geod

open Real
open Verif.Wgs
open Verif.Globe (LL E3 Err radians degrees atan2 pmod atan2_polar)

/-- An iteration seen in a mirror that exchanges east and west. -/
noncomputable def Iter.mirror (it : Iter) : Iter := { it with sinL := -it.sinL, sinA := -it.sinA, next := -it.next }

theorem invStep_mirror (u1 u2 L l : ℝ) : invStep u1 u2 (-L) (-l) = (invStep u1 u2 L l).map Iter.mirror := by
  unfold invStep
  have e : (cos u2 * sin (-l)) ^ 2 = (cos u2 * sin l) ^ 2 := by rw [sin_neg]; ring
  simp only [cos_neg, e]
  split
  · rfl
  · rename_i h
    set S := √((cos u2 * sin l) ^ 2 + (cos u1 * sin u2 - sin u1 * cos u2 * cos l) ^ 2)
    have e2 : cos u1 * cos u2 * -sin l / S = -(cos u1 * cos u2 * sin l / S) := by ring
    simp only [sin_neg, e2, neg_sq, Except.map, Iter.mirror]
    congr 2
    ring

theorem invLoop_mirror (u1 u2 L tol : ℝ) (n : ℕ) (l : ℝ) : invLoop u1 u2 (-L) tol n (-l) = (invLoop u1 u2 L tol n l).map Iter.mirror := by
  induction n generalizing l with
  | zero => rfl
  | succ n ih =>
    unfold invLoop
    rw [invStep_mirror]
    cases invStep u1 u2 L l with
    | error e => rfl
    | ok it =>
      have e : |it.mirror.next - -l| = |it.next - l| := by
        show |-it.next - -l| = _
        rw [show -it.next - -l = -(it.next - l) by ring, abs_neg]
      simp only [Except.map, e]
      split
      · rfl
      · exact ih it.next

/-- The distance in a mirror. -/
theorem distBearing_mirror {k tol : ℝ} {n : ℕ} {p q : LL} (hp : p.1 = 0) (hq : q.1 = 0) {d : ℝ} (h : distBearing k tol n p q = .ok (d, 90)) (hne : p.2 ≠ q.2) :
    distBearing k tol n (p.1, -p.2) (q.1, -q.2) = .ok (d, 270) := by
  unfold distBearing at h ⊢
  rw [if_neg (fun h => hne h.2)] at h
  rw [if_neg (fun h => hne (neg_injective h.2))]
  have e : radians ((q.1, -q.2).2 - (p.1, -p.2).2) = -radians (q.2 - p.2) := by
    show radians (-q.2 - -p.2) = _
    unfold radians; ring
  simp only [e, invLoop_mirror]
  simp only at h
  simp only [hp, hq, reduced_zero] at h ⊢
  cases hl : invLoop 0 0 (radians (q.2 - p.2)) tol n (radians (q.2 - p.2)) with
  | error e => rw [hl] at h; cases h
  | ok it =>
    rw [hl] at h
    simp only [Except.map, Except.ok.injEq] at h ⊢
    unfold finish at h ⊢
    simp only [Prod.mk.injEq] at h ⊢
    obtain ⟨h1, h2⟩ := h
    refine ⟨h1, ?_⟩
    have hs : 0 < it.sinL := by
      by_contra hn
      rcases (not_lt.1 hn).lt_or_eq with h0 | h0
      · have := atan2_polar (r := -it.sinL) (θ := -(π / 2)) (by linarith) (by linarith [pi_pos]) (by linarith [pi_pos])
        rw [sin_neg, cos_neg, sin_pi_div_two, cos_pi_div_two] at this
        simp only [cos_zero, sin_zero, one_mul, zero_mul, sub_zero] at h2
        rw [show it.sinL = -it.sinL * -1 by ring, show (0 : ℝ) = -it.sinL * 0 by ring, this] at h2
        have e : degrees (-(π / 2)) = -90 := by unfold degrees; field_simp; norm_num
        have hfl : ⌊(-90 : ℝ) / 360⌋ = -1 := by rw [Int.floor_eq_iff]; norm_num
        rw [e, pmod, hfl] at h2
        norm_num at h2
      · simp only [cos_zero, sin_zero, one_mul, zero_mul, sub_zero, h0] at h2
        have e : atan2 0 0 = 0 := by
          unfold atan2
          have : (⟨0, 0⟩ : ℂ) = 0 := rfl
          rw [this, Complex.arg_zero]
        rw [e] at h2
        simp [degrees, pmod] at h2
    show pmod (degrees (atan2 (cos 0 * -it.sinL) (cos 0 * sin 0 - sin 0 * cos 0 * it.cosL))) 360 = 270
    have := atan2_polar hs (by linarith [pi_pos] : -π < -(π / 2)) (by linarith [pi_pos])
    rw [sin_neg, cos_neg, sin_pi_div_two, cos_pi_div_two] at this
    simp only [cos_zero, sin_zero, one_mul, zero_mul, sub_zero]
    rw [show -it.sinL = it.sinL * -1 by ring, show (0 : ℝ) = it.sinL * 0 by ring, this]
    have e : degrees (-(π / 2)) = -90 := by unfold degrees; field_simp; norm_num
    have hfl : ⌊(-90 : ℝ) / 360⌋ = -1 := by rw [Int.floor_eq_iff]; norm_num
    rw [e, pmod, hfl]
    norm_num

/-- **C71.** Along the equator, eastwards (`w = 1`) or westwards (`w = -1`). -/
theorem c71_equator_ways {k tol : ℝ} {n : ℕ} {p q : LL} (hk : 0 < k) (ht : 1e-12 ≤ tol) (hn : 7 ≤ n) (hp : p.1 = 0) (hq : q.1 = 0) {w : ℝ} (hw : w = 1 ∨ w = -1)
    (h0 : 0 < w * (q.2 - p.2)) (h1 : w * (q.2 - p.2) < 180 * (1 - f)) :
    ∃ d, distBearing k tol n p q = .ok (d, 180 - 90 * w) ∧ |d * k - a * radians (w * (q.2 - p.2))| ≤ 5e-7 + a * tol := by
  rcases hw with rfl | rfl
  · rw [one_mul] at h0 h1 ⊢
    obtain ⟨d, hd, h⟩ := c71_equator hk ht hn hp hq h0 h1
    exact ⟨d, by rw [hd]; norm_num, h⟩
  · obtain ⟨d, hd, h⟩ := c71_equator (k := k) (tol := tol) (n := n) (p := (p.1, -p.2)) (q := (q.1, -q.2)) hk ht hn hp hq (by simp only; linarith) (by simp only; linarith)
    have := distBearing_mirror (p := (p.1, -p.2)) (q := (q.1, -q.2)) hp hq hd (by
      show -p.2 ≠ -q.2
      intro e; have := neg_injective e; rw [this] at h0; simp at h0)
    simp only [neg_neg, Prod.mk.eta] at this
    refine ⟨d, by rw [this]; norm_num, ?_⟩
    rw [show -1 * (q.2 - p.2) = -q.2 - -p.2 by ring]
    exact h

example : ∃ d, distBearing 1000 1e-12 200 (0, 170) (0, 10) = .ok (d, 270) ∧ |d * 1000 - a * radians 160| ≤ 5e-7 + a * 1e-12 := by
  obtain ⟨d, hd, h⟩ := c71_equator_ways (k := 1000) (tol := 1e-12) (n := 200) (p := (0, 170)) (q := (0, 10)) (by norm_num) le_rfl (by norm_num) rfl rfl (.inr rfl) (by norm_num)
    (by unfold f; norm_num)
  norm_num at hd h ⊢
  exact ⟨d, hd, h⟩

/-- **C71.** Destinations along the equator are exact. -/
theorem c71_equator_exact {k tol : ℝ} {n : ℕ} {p : LL} (ht : 0 < tol) (hn : n ≠ 0) (hp : p.1 = 0) {w : ℝ} (hw : w = 1 ∨ w = -1) {d : ℝ} (h0 : 0 ≤ d * k) (h1 : d * k < b * π) :
    pointFrom k tol n p (180 - 90 * w) d = .ok (0, p.2 + w * degrees (d * k / a)) := by
  have hb := b_pos
  have hsin : sin (radians (180 - 90 * w)) = w := by
    rcases hw with rfl | rfl
    · rw [show radians (180 - 90 * 1) = π / 2 by unfold radians; ring, sin_pi_div_two]
    · rw [show radians (180 - 90 * -1) = π / 2 + π by unfold radians; ring, sin_add_pi, sin_pi_div_two]
  have hcos : cos (radians (180 - 90 * w)) = 0 := by
    rcases hw with rfl | rfl
    · rw [show radians (180 - 90 * 1) = π / 2 by unfold radians; ring, cos_pi_div_two]
    · rw [show radians (180 - 90 * -1) = π / 2 + π by unfold radians; ring, cos_add_pi, cos_pi_div_two, neg_zero]
  have hw2 : w ^ 2 = 1 := by rcases hw with rfl | rfl <;> norm_num
  have hst : start 0 (radians (180 - 90 * w)) = (0, 1, atan2 0 0) := by
    unfold start
    simp [radians] at hcos ⊢
    rw [hcos]
  set σ := d * k / b with hσ
  have s0 : 0 ≤ σ := div_nonneg h0 hb.le
  have s1 : σ < π := by rw [hσ, div_lt_iff₀ hb]; linarith
  obtain ⟨m, rfl⟩ : ∃ m, n = m + 1 := ⟨n - 1, by omega⟩
  have hlam : atan2 (sin σ * w) (cos σ) = w * σ := by
    rcases hw with rfl | rfl
    · have := atan2_polar one_pos (by linarith : -π < σ) s1.le
      simpa using this
    · have := atan2_polar one_pos (by linarith : -π < -σ) (by linarith [pi_pos])
      rw [sin_neg, cos_neg] at this
      simpa using this
  have hy : uSq (1 - (1 * w) ^ 2) = 0 := by rw [one_mul, hw2]; simp [uSq]
  unfold pointFrom
  simp only [hp, hst, hsin, hy]
  rw [show bigA 0 = 1 by simp [bigA], show bigB 0 = 0 by simp [bigB], mul_one, ← hσ]
  unfold dirLoop
  rw [show deltaSigma 0 (sin σ) (cos σ) (cos (2 * atan2 0 0 + σ)) = 0 by simp [deltaSigma], add_zero]
  simp only [sub_self, abs_zero, if_pos ht, Except.ok.injEq]
  unfold arrive
  simp only [hsin, hcos]
  have e1 : (1 * w) ^ 2 = 1 := by rw [one_mul]; exact hw2
  refine Prod.ext ?_ ?_
  · simp only [e1]
    have : atan2 0 ((1 - f) * 1) = 0 := by
      have := atan2_polar (r := 1 - f) (θ := 0) one_sub_f_pos (by linarith [pi_pos]) pi_pos.le
      simpa using this
    simp [degrees] at this ⊢
    rw [this]
  · simp only [e1]
    rw [show bigC (1 - 1) = 0 by simp [bigC]]
    have hb' : b = a * (1 - f) := rfl
    have hf := one_sub_f_pos
    have ha := a_pos
    have : radians p.2 + (atan2 (sin σ * w) (1 * cos σ - 0 * sin σ * 0) - (1 - 0) * f * (1 * w) * (σ + 0 * (1 * w) * (cos (2 * atan2 0 0 + σ) + 0 * cos σ * (-1 + 2 * cos (2 * atan2 0 0 + σ) ^ 2)))) =
        radians p.2 + w * (d * k / a) := by
      rw [one_mul, zero_mul, zero_mul, sub_zero, hlam, hσ, hb']
      field_simp
      ring
    rw [this]
    unfold degrees radians
    field_simp

example : pointFrom 1000 1e-12 200 (0, 10) 270 (20 : ℝ) = .ok (0, 10 + -1 * degrees (20 * 1000 / a)) := by
  have := c71_equator_exact (k := 1000) (tol := 1e-12) (n := 200) (p := (0, 10)) (w := -1) (d := 20) (by norm_num) (by norm_num) rfl (.inr rfl) (by norm_num)
    (by unfold b a f; have := pi_gt_three; norm_num; linarith)
  norm_num at this ⊢
  exact this

end Verif.Geod
