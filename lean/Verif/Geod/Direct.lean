import Verif.Geod.InvProps

/-!
# Destinations
-/

namespace Verif.Geod

open Real
open Verif.Wgs
open Verif.Globe (LL E3 Err radians degrees atan2 pmod vec heading ext3 rad_eq rad_deg atan2_cos_sin atan2_polar radians_pmod)

/-- The first angle of the code is the one from the node. -/
theorem start_node {p : LL} (hp : Lat p) (α : ℝ) : Node (cos (reduced p.1)) (sin (reduced p.1)) (cos α) (sin α) (start p.1 α).2.2 := by
  have A : Ang (cos (reduced p.1)) (sin (reduced p.1)) (cos α) (sin α) := ang _ _
  have key : sin (reduced p.1) ^ 2 + (cos (reduced p.1) * cos α) ^ 2 = 1 - (cos (reduced p.1) * sin α) ^ 2 := by
    linear_combination A.u + cos (reduced p.1) ^ 2 * A.az
  by_cases h : cos (radians p.1) = 0
  · have hr : reduced p.1 = radians p.1 := by unfold reduced; rw [if_pos h]
    have h1 : (start p.1 α).2.2 = atan2 (sin (radians p.1)) 0 := by unfold start; simp [h]
    rw [hr, h] at key
    rw [h1, hr, h]
    have hs := atan2_cos_sin (sin (radians p.1)) 0
    simp only [zero_mul, zero_pow two_ne_zero, sub_zero, add_zero, zero_add] at key hs ⊢
    rw [key, sqrt_one, one_mul, one_mul] at hs
    constructor
    · rw [hs.2]; simp
    · rw [hs.1]; simp
  · have hc : 0 < cos (reduced p.1) := by
      rw [red_cos hp]; exact div_pos (lt_of_le_of_ne (cos_lat hp) (Ne.symm h)) (om_pos _)
    have ht : (1 - f) * tan (radians p.1) = sin (reduced p.1) / cos (reduced p.1) := by
      rw [← tan_eq_sin_div_cos]; unfold reduced; rw [if_neg h, tan_arctan]
    have h1 : (start p.1 α).2.2 = atan2 (sin (reduced p.1) / cos (reduced p.1)) (cos α) := by
      rw [← ht]; unfold start; simp [h]
    have hs := atan2_cos_sin (sin (reduced p.1) / cos (reduced p.1)) (cos α)
    have hroot : √(1 - (cos (reduced p.1) * sin α) ^ 2) = cos (reduced p.1) * √(cos α ^ 2 + (sin (reduced p.1) / cos (reduced p.1)) ^ 2) := by
      rw [← key, ← sqrt_sq hc.le, ← sqrt_mul (sq_nonneg _), sqrt_sq hc.le]
      congr 1
      field_simp
      ring
    rw [h1]
    constructor
    · rw [hroot, mul_assoc, hs.2]; field_simp
    · rw [hroot, mul_assoc, hs.1]

/-- The latitude of the destination. -/
theorem dest_lat {z ρ : ℝ} (h : ρ ^ 2 + z ^ 2 = 1) (hρ : 0 ≤ ρ) (m : ℝ) :
    Lat (degrees (atan2 z ((1 - f) * ρ)), m) ∧ cos (reduced (degrees (atan2 z ((1 - f) * ρ)))) = ρ ∧
      sin (reduced (degrees (atan2 z ((1 - f) * ρ)))) = z := by
  have hf := one_sub_f_pos
  have hπ := pi_pos
  set φ := atan2 z ((1 - f) * ρ) with hφ
  have hrange : |φ| ≤ π / 2 := by
    rw [hφ]; unfold atan2
    rw [Complex.abs_arg_le_pi_div_two_iff]
    exact mul_nonneg hf.le hρ
  have hL : Lat (degrees φ, m) := by
    rw [abs_le] at hrange
    have e : ∀ x : ℝ, degrees x = x * (180 / π) := fun x => by unfold degrees; ring
    have h2 : π / 2 * (180 / π) = 90 := by field_simp; norm_num
    constructor
    · show -90 ≤ degrees φ
      rw [e]
      have := mul_le_mul_of_nonneg_right hrange.1 (by positivity : 0 ≤ 180 / π)
      linarith
    · show degrees φ ≤ 90
      rw [e]
      have := mul_le_mul_of_nonneg_right hrange.2 (by positivity : 0 ≤ 180 / π)
      linarith
  have hN2 : 0 < ((1 - f) * ρ) ^ 2 + z ^ 2 := by
    rcases hρ.eq_or_lt with h0 | h0
    · rw [← h0] at h ⊢; nlinarith
    · have := mul_pos hf h0; positivity
  have hcs := atan2_cos_sin z ((1 - f) * ρ)
  rw [← hφ] at hcs
  set N := √(((1 - f) * ρ) ^ 2 + z ^ 2) with hN
  have hNp : 0 < N := sqrt_pos.mpr hN2
  have hNsq : N ^ 2 = ((1 - f) * ρ) ^ 2 + z ^ 2 := sq_sqrt hN2.le
  have hom : om φ = (1 - f) / N := by
    have : om φ ^ 2 = ((1 - f) / N) ^ 2 := by
      rw [om_sq, div_pow, eq_div_iff (by positivity)]
      have e2' := one_sub_e2
      have : (1 - e2 * sin φ ^ 2) * N ^ 2 = N ^ 2 - e2 * (N * sin φ) ^ 2 := by ring
      rw [this, hcs.2, hNsq]
      linear_combination (1 - f) ^ 2 * h + z ^ 2 * e2'
    exact (pow_left_inj₀ (om_pos _).le (by positivity) two_ne_zero).mp this
  refine ⟨hL, ?_, ?_⟩
  · have := red_cos hL
    simp only [rad_deg] at this
    rw [this, hom]
    field_simp
    linarith [hcs.1]
  · have := red_sin hL
    simp only [rad_deg] at this
    rw [this, hom]
    field_simp
    linarith [hcs.2]

/-- The correction of the longitude as the code has it. -/
noncomputable def bug (S q x1 T new : ℝ) : ℝ :=
  (1 - bigC q) * f * (new + bigC q * S * (cos (2 * x1 + T) + bigC q * cos T * (-1 + 2 * cos (2 * x1 + T) ^ 2)))

/-- The destination is as far from the end of the geodesic as the longitude is wrong. -/
theorem arrive_dist {cu su ca sa : ℝ} (A : Ang cu su ca sa) {α : ℝ} (hca : cos α = ca) (hsa : sin α = sa) (p : LL) (x1 σ new : ℝ) :
    Lat (arrive p su cu x1 α σ new) ∧ gam cu su ca sa (radians p.2) σ 2 = ground (arrive p su cu x1 α σ new) 2 ∧ dist (gam cu su ca sa (radians p.2) σ) (ground (arrive p su cu x1 α σ new)) ≤
      a * |cu * sa * bug (cu * sa) (1 - (cu * sa) ^ 2) x1 σ new - delta cu su ca sa σ| := by
  have ha := a_pos
  have hz : su * cos σ + cu * sin σ * ca = g3 cu su ca σ := by unfold g3; ring
  have hρ : √((cu * sa) ^ 2 + (su * sin σ - cu * cos σ * ca) ^ 2) = √(1 - g3 cu su ca σ ^ 2) := by
    congr 1
    have := A.d3_sq σ
    have e : (su * sin σ - cu * cos σ * ca) ^ 2 = d3 cu su ca σ ^ 2 := by unfold d3; ring
    rw [e, this]; ring
  have hx : cu * cos σ - su * sin σ * ca = g1 cu su ca σ := by unfold g1; ring
  have hy : sin σ * sa = g2 sa σ := by unfold g2; ring
  have h1 := A.one σ
  have hlam := atan2_cos_sin (g2 sa σ) (g1 cu su ca σ)
  rw [show g1 cu su ca σ ^ 2 + g2 sa σ ^ 2 = 1 - g3 cu su ca σ ^ 2 by linarith] at hlam
  set ρ := √(1 - g3 cu su ca σ ^ 2) with hρd
  have hρ0 : 0 ≤ ρ := sqrt_nonneg _
  have hρsq : ρ ^ 2 = 1 - g3 cu su ca σ ^ 2 := sq_sqrt (by have := A.g3_le σ; linarith)
  have hρ1 : ρ ≤ 1 := by
    rw [hρd, sqrt_le_one]
    nlinarith [sq_nonneg (g3 cu su ca σ)]
  set lam := atan2 (g2 sa σ) (g1 cu su ca σ) with hlamd
  have hP : arrive p su cu x1 α σ new = (degrees (atan2 (g3 cu su ca σ) ((1 - f) * ρ)),
      degrees (radians p.2 + (lam - cu * sa * bug (cu * sa) (1 - (cu * sa) ^ 2) x1 σ new))) := by
    unfold arrive
    simp only [hca, hsa, hz, hρ, hx, hy, ← hlamd]
    unfold bug
    congr 2
    ring
  rw [hP]
  obtain ⟨hL, hc, hs⟩ := dest_lat (z := g3 cu su ca σ) (ρ := ρ) (by linarith) hρ0
    (degrees (radians p.2 + (lam - cu * sa * bug (cu * sa) (1 - (cu * sa) ^ 2) x1 σ new)))
  refine ⟨hL, ?_⟩
  rw [ground_eq hL]
  simp only [hc, hs, rad_deg]
  have hg : gam cu su ca sa (radians p.2) σ = !₂[a * ρ * cos (radians p.2 + lam - delta cu su ca sa σ),
      a * ρ * sin (radians p.2 + lam - delta cu su ca sa σ), b * g3 cu su ca σ] := by
    unfold gam
    rw [← hlam.1, ← hlam.2, show radians p.2 + lam - delta cu su ca sa σ = (radians p.2 - delta cu su ca sa σ) + lam by ring, cos_add, sin_add]
    refine ext3 ?_ ?_ ?_ <;> simp <;> ring
  rw [hg]
  refine ⟨rfl, ?_⟩
  refine (chord (mul_nonneg ha.le hρ0)).trans ?_
  have e : radians p.2 + lam - delta cu su ca sa σ - (radians p.2 + (lam - cu * sa * bug (cu * sa) (1 - (cu * sa) ^ 2) x1 σ new)) =
      cu * sa * bug (cu * sa) (1 - (cu * sa) ^ 2) x1 σ new - delta cu su ca sa σ := by ring
  rw [e]
  apply mul_le_mul_of_nonneg_right _ (abs_nonneg _)
  nlinarith

theorem dirLoop_ok {σ0 B σ1 tol : ℝ} {n : ℕ} {l : ℝ} {σ new : ℝ} (h : dirLoop σ0 B σ1 tol n l = .ok (σ, new)) :
    new = σ0 + deltaSigma B (sin σ) (cos σ) (cos (2 * σ1 + σ)) ∧ |σ - new| < tol := by
  induction n generalizing l with
  | zero => cases h
  | succ n ih =>
    unfold dirLoop at h
    simp only at h
    split at h
    · injection h with h
      injection h with h1 h2
      subst h1
      exact ⟨h2.symm, by rw [← h2]; assumption⟩
    · exact ih h

theorem deltaSigma_small {B : ℝ} (h0 : 0 ≤ B) (h1 : B ≤ 0.001685) (x1 t : ℝ) : |deltaSigma B (sin t) (cos t) (cos (2 * x1 + t))| ≤ 0.002 := by
  rw [deltaSigma_eq]
  have hB2 : B ^ 2 ≤ 0.001685 ^ 2 := pow_le_pow_left₀ h0 h1 2
  have hB3 : B ^ 3 ≤ 0.001685 ^ 3 := pow_le_pow_left₀ h0 h1 3
  have key : ∀ c x y : ℝ, 0 ≤ c → |c * (sin x - sin y)| ≤ 2 * c := fun c x y hc => by
    rw [abs_mul, abs_of_nonneg hc]
    have h1 := abs_sin_le_one x
    have h2 := abs_sin_le_one y
    have h3 : |sin x - sin y| ≤ 2 := (abs_sub _ _).trans (by linarith)
    nlinarith
  have b1 := key (B / 2) (2 * x1 + 2 * t) (2 * x1) (by positivity)
  have b2 := key (B ^ 2 / 16) (2 * (2 * x1 + 2 * t)) (2 * (2 * x1)) (by positivity)
  have b3 := key (B ^ 3 / 48) (3 * (2 * x1 + 2 * t)) (3 * (2 * x1)) (by positivity)
  refine (abs_add_three _ _ _).trans ((add_le_add (add_le_add b1 b2) b3).trans ?_)
  norm_num at hB2 hB3 h1 ⊢
  linarith

/-- The loop ends. -/
theorem dirLoop_total {σ0 B σ1 tol : ℝ} (h0 : 0 ≤ B) (h1 : B ≤ 0.001685) (n : ℕ) (σ : ℝ)
    (hn : (0.002 : ℝ) ^ n * |σ - (σ0 + deltaSigma B (sin σ) (cos σ) (cos (2 * σ1 + σ)))| < tol) : ∃ r, dirLoop σ0 B σ1 tol (n + 1) σ = .ok r := by
  induction n generalizing σ with
  | zero =>
    unfold dirLoop
    simp only
    rw [pow_zero, one_mul] at hn
    rw [if_pos hn]
    exact ⟨_, rfl⟩
  | succ n ih =>
    unfold dirLoop
    simp only
    split
    · exact ⟨_, rfl⟩
    · set new := σ0 + deltaSigma B (sin σ) (cos σ) (cos (2 * σ1 + σ)) with hnew
      apply ih
      have hc := contraction h0 h1 σ1 σ new
      have e : new - (σ0 + deltaSigma B (sin new) (cos new) (cos (2 * σ1 + new))) =
        deltaSigma B (sin σ) (cos σ) (cos (2 * σ1 + σ)) - deltaSigma B (sin new) (cos new) (cos (2 * σ1 + new)) := by rw [hnew]; ring
      rw [e]
      refine lt_of_le_of_lt (mul_le_mul_of_nonneg_left hc (by positivity)) ?_
      rw [← mul_assoc, ← pow_succ]
      exact hn

end Verif.Geod
