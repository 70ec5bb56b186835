import Verif.Geod.Start

/-!
# The loop of `distance_and_bearing`
-/

namespace Verif.Geod

open Real
open Verif.Wgs
open Verif.Globe (LL E3 Err radians degrees atan2 pmod vec heading ext3 rad_eq atan2_cos_sin atan2_polar radians_pmod)

/-- Two places of the same latitude are no farther apart than their longitudes. -/
theorem chord {r l m z : ℝ} (hr : 0 ≤ r) : dist (!₂[r * cos l, r * sin l, z] : E3) !₂[r * cos m, r * sin m, z] ≤ r * |l - m| := by
  rw [EuclideanSpace.dist_eq, Fin.sum_univ_three]
  simp only [Real.dist_eq, sq_abs]
  have e : ((!₂[r * cos l, r * sin l, z] : E3) 0 - (!₂[r * cos m, r * sin m, z] : E3) 0) ^ 2 + ((!₂[r * cos l, r * sin l, z] : E3) 1 - (!₂[r * cos m, r * sin m, z] : E3) 1) ^ 2 +
      ((!₂[r * cos l, r * sin l, z] : E3) 2 - (!₂[r * cos m, r * sin m, z] : E3) 2) ^ 2 = r ^ 2 * (2 - 2 * cos (l - m)) := by
    simp
    rw [cos_sub]
    linear_combination r ^ 2 * (sin_sq_add_cos_sq l + sin_sq_add_cos_sq m)
  rw [e]
  apply sqrt_le_iff.mpr
  refine ⟨by positivity, ?_⟩
  have h := one_sub_sq_div_two_le_cos (x := l - m)
  rw [mul_pow, sq_abs]
  nlinarith [sq_nonneg r]

theorem node {cu su ca sa : ℝ} (A : Ang cu su ca sa) : ∃ x1, Node cu su ca sa x1 := by
  have hq := A.q_bd.1
  have key : su ^ 2 + (cu * ca) ^ 2 = 1 - (cu * sa) ^ 2 := by linear_combination A.u + cu ^ 2 * A.az
  refine ⟨atan2 su (cu * ca), ?_, ?_⟩
  · have := (atan2_cos_sin su (cu * ca)).2
    rw [show (cu * ca) ^ 2 + su ^ 2 = 1 - (cu * sa) ^ 2 by linarith] at this
    exact this.symm
  · have := (atan2_cos_sin su (cu * ca)).1
    rw [show (cu * ca) ^ 2 + su ^ 2 = 1 - (cu * sa) ^ 2 by linarith] at this
    exact this.symm

/-- What one iteration computes. -/
structure Good (u1 u2 L l : ℝ) (it : Iter) (ca sa x1 σ : ℝ) : Prop where
  A : Ang (cos u1) (sin u1) ca sa
  N : Node (cos u1) (sin u1) ca sa x1
  lo : 0 ≤ σ
  hi : σ ≤ π
  sinL : it.sinL = sin l
  cosL : it.cosL = cos l
  pos : 0 < sin σ
  east : cos u2 * sin l = sin σ * sa
  north : cos u1 * sin u2 - sin u1 * cos u2 * cos l = sin σ * ca
  cosS : sin u1 * sin u2 + cos u1 * cos u2 * cos l = cos σ
  sig : it.sig = σ
  sinA : it.sinA = cos u1 * sa
  cosSqA : it.cosSqA = 1 - (cos u1 * sa) ^ 2
  next : it.next = L + cos u1 * sa * corr (1 - (cos u1 * sa) ^ 2) x1 σ
  len : it.sig - deltaSigma (bigB (uSq it.cosSqA)) it.sinS it.cosS it.cos2m =
    σ - deltaSigma (bigB (uSq (1 - (cos u1 * sa) ^ 2))) (sin σ) (cos σ) (cos (2 * x1 + σ))

theorem sides (u1 u2 l : ℝ) : (cos u2 * sin l) ^ 2 + (cos u1 * sin u2 - sin u1 * cos u2 * cos l) ^ 2 +
    (sin u1 * sin u2 + cos u1 * cos u2 * cos l) ^ 2 = 1 := by
  have h1 := sin_sq_add_cos_sq u1
  have h2 := sin_sq_add_cos_sq u2
  have h3 := sin_sq_add_cos_sq l
  have e : (cos u2 * sin l) ^ 2 + (cos u1 * sin u2 - sin u1 * cos u2 * cos l) ^ 2 + (sin u1 * sin u2 + cos u1 * cos u2 * cos l) ^ 2 =
      cos u2 ^ 2 * sin l ^ 2 + (sin u1 ^ 2 + cos u1 ^ 2) * (sin u2 ^ 2 + cos u2 ^ 2 * cos l ^ 2) := by ring
  rw [e, h1]; linear_combination cos u2 ^ 2 * h3 + h2

theorem invStep_good {u1 u2 L l : ℝ} {it : Iter} (h : invStep u1 u2 L l = .ok it) : ∃ ca sa x1 σ, Good u1 u2 L l it ca sa x1 σ := by
  unfold invStep at h
  simp only at h
  set S : ℝ := √((cos u2 * sin l) ^ 2 + (cos u1 * sin u2 - sin u1 * cos u2 * cos l) ^ 2) with hS
  set K : ℝ := sin u1 * sin u2 + cos u1 * cos u2 * cos l with hK
  by_cases h0 : S = 0
  · rw [if_pos h0] at h; cases h
  rw [if_neg h0] at h
  have hp : 0 < S := lt_of_le_of_ne (sqrt_nonneg _) (Ne.symm h0)
  have hSq : S ^ 2 = (cos u2 * sin l) ^ 2 + (cos u1 * sin u2 - sin u1 * cos u2 * cos l) ^ 2 := sq_sqrt (by positivity)
  have hone : K ^ 2 + S ^ 2 = 1 := by rw [hSq]; linarith [sides u1 u2 l]
  have hσ := atan2_cos_sin S K
  rw [hone, sqrt_one, one_mul, one_mul] at hσ
  set σ := atan2 S K with hσd
  have hA : Ang (cos u1) (sin u1) ((cos u1 * sin u2 - sin u1 * cos u2 * cos l) / S) (cos u2 * sin l / S) := by
    refine ⟨by linarith [sin_sq_add_cos_sq u1], ?_⟩
    rw [div_pow, div_pow, ← add_div, div_eq_one_iff_eq (by positivity)]
    linarith
  obtain ⟨x1, N⟩ := node hA
  have hrange : 0 ≤ σ ∧ σ ≤ π := by
    have hle : σ ≤ π := by rw [hσd]; exact Complex.arg_le_pi _
    refine ⟨?_, hle⟩
    rw [hσd]
    unfold atan2
    rw [Complex.arg_nonneg_iff]
    exact hp.le
  have hsa : cos u1 * cos u2 * sin l / S = cos u1 * (cos u2 * sin l / S) := by ring
  set sa := cos u2 * sin l / S with hsad
  set ca := (cos u1 * sin u2 - sin u1 * cos u2 * cos l) / S with hcad
  have hm : 1 - (cos u1 * sa) ^ 2 ≠ 0 → K - 2 * sin u1 * sin u2 / (1 - (cos u1 * sa) ^ 2) = cos (2 * x1 + σ) := by
    intro hq
    have hq0 := hA.q_bd.1
    have hr := sq_sqrt hq0
    have h2 : sin u2 = g3 (cos u1) (sin u1) ca σ := by
      unfold g3
      rw [hσ.1, hσ.2, hcad, hK]
      field_simp
      linear_combination (-sin u2) * sin_sq_add_cos_sq u1
    rw [N.g3] at h2
    have h1 : 2 * sin u1 * sin u2 = (1 - (cos u1 * sa) ^ 2) * (2 * sin x1 * sin (x1 + σ)) := by
      rw [h2]
      nth_rw 1 [N.s]
      linear_combination (2 * sin x1 * sin (x1 + σ)) * hr
    rw [h1, mul_div_cancel_left₀ _ hq, ← hσ.1, show 2 * x1 + σ = (x1 + σ) + x1 by ring, cos_add,
      show cos σ = cos ((x1 + σ) - x1) by congr 1; ring, cos_sub]
    ring
  rw [hsa] at h
  injection h with h
  subst h
  refine ⟨ca, sa, x1, σ, hA, N, hrange.1, hrange.2, rfl, rfl, by rw [hσ.2]; exact hp, ?_, ?_, hσ.1.symm, rfl, rfl, rfl, ?_, ?_⟩
  · rw [hσ.2, hsad]; field_simp
  · rw [hσ.2, hcad]; field_simp
  · simp only
    unfold corr
    by_cases hq : 1 - (cos u1 * sa) ^ 2 = 0
    · rw [hq]; simp [bigC]; ring
    · rw [if_neg hq, hm hq, hσ.1, hσ.2]; ring
  · simp only
    by_cases hq : 1 - (cos u1 * sa) ^ 2 = 0
    · rw [hq]; simp [bigB, uSq, deltaSigma]
    · rw [if_neg hq, hm hq, hσ.1, hσ.2]

theorem invLoop_step {u1 u2 L tol : ℝ} {n : ℕ} {l0 : ℝ} {it : Iter} (h : invLoop u1 u2 L tol n l0 = .ok it) :
    ∃ l, invStep u1 u2 L l = .ok it ∧ |it.next - l| < tol := by
  induction n generalizing l0 with
  | zero => cases h
  | succ n ih =>
    unfold invLoop at h
    cases hs : invStep u1 u2 L l0 with
    | error e => rw [hs] at h; cases h
    | ok i =>
      rw [hs] at h
      simp only at h
      split at h
      · injection h with h; subst h; exact ⟨l0, hs, by assumption⟩
      · exact ih h

theorem deltaSigma_deriv (B x1 t : ℝ) : HasDerivAt (fun T => deltaSigma B (sin T) (cos T) (cos (2 * x1 + T)))
    (B * cos (2 * x1 + 2 * t) + B ^ 2 / 4 * cos (2 * (2 * x1 + 2 * t)) + B ^ 3 / 8 * cos (3 * (2 * x1 + 2 * t))) t := by
  have h1 := hasDeriv_sinX 1 x1 t
  simp only [one_mul] at h1
  have := ((h1.const_mul (B / 2)).add ((hasDeriv_sinX 2 x1 t).const_mul (B ^ 2 / 16))).add ((hasDeriv_sinX 3 x1 t).const_mul (B ^ 3 / 48))
  refine (this.congr_deriv (by ring)).congr_of_eventuallyEq (Filter.Eventually.of_forall fun T => ?_)
  exact deltaSigma_eq _ _ _

/-- The iteration is a contraction. -/
theorem contraction {B : ℝ} (h0 : 0 ≤ B) (h1 : B ≤ 0.001685) (x1 s t : ℝ) :
    |deltaSigma B (sin s) (cos s) (cos (2 * x1 + s)) - deltaSigma B (sin t) (cos t) (cos (2 * x1 + t))| ≤ 0.002 * |s - t| := by
  have := Convex.norm_image_sub_le_of_norm_hasDerivWithin_le (f := fun T => deltaSigma B (sin T) (cos T) (cos (2 * x1 + T)))
    (f' := fun t => B * cos (2 * x1 + 2 * t) + B ^ 2 / 4 * cos (2 * (2 * x1 + 2 * t)) + B ^ 3 / 8 * cos (3 * (2 * x1 + 2 * t)))
    (C := 0.002) (s := Set.univ) (x := t) (y := s) (fun x _ => (deltaSigma_deriv B x1 x).hasDerivWithinAt) (fun x _ => ?_) convex_univ trivial trivial
  · exact this
  · rw [norm_eq_abs]
    have hB2 : B ^ 2 ≤ 0.001685 ^ 2 := pow_le_pow_left₀ h0 h1 2
    have hB3 : B ^ 3 ≤ 0.001685 ^ 3 := pow_le_pow_left₀ h0 h1 3
    have b1 : |B * cos (2 * x1 + 2 * x)| ≤ B := by
      rw [abs_mul, abs_of_nonneg h0]; have := abs_cos_le_one (2 * x1 + 2 * x); nlinarith
    have b2 : |B ^ 2 / 4 * cos (2 * (2 * x1 + 2 * x))| ≤ B ^ 2 / 4 := by
      rw [abs_mul, abs_of_nonneg (by positivity)]; have := abs_cos_le_one (2 * (2 * x1 + 2 * x)); nlinarith [sq_nonneg B]
    have b3 : |B ^ 3 / 8 * cos (3 * (2 * x1 + 2 * x))| ≤ B ^ 3 / 8 := by
      rw [abs_mul, abs_of_nonneg (by positivity)]; have := abs_cos_le_one (3 * (2 * x1 + 2 * x)); nlinarith [pow_nonneg h0 3]
    refine (abs_add_three _ _ _).trans ((add_le_add (add_le_add b1 b2) b3).trans ?_)
    norm_num at hB2 hB3 h1 ⊢
    linarith

theorem round6_bd (x : ℝ) : |round6 x - x| ≤ 5e-7 := by
  have h := abs_sub_round (x * 1000000)
  unfold round6
  rw [abs_le] at h ⊢
  constructor <;> norm_num at h ⊢ <;> linarith [h.1, h.2]

theorem Good.end {u1 u2 L l : ℝ} {it : Iter} {ca sa x1 σ : ℝ} (G : Good u1 u2 L l it ca sa x1 σ) :
    g1 (cos u1) (sin u1) ca σ = cos u2 * cos l ∧ g2 sa σ = cos u2 * sin l ∧ g3 (cos u1) (sin u1) ca σ = sin u2 := by
  unfold g1 g2 g3
  have h1 := sin_sq_add_cos_sq u1
  refine ⟨?_, ?_, ?_⟩
  · rw [← G.cosS]; linear_combination sin u1 * G.north + cos u2 * cos l * h1
  · linarith [G.east]
  · rw [← G.cosS]; linear_combination (-cos u1) * G.north + sin u2 * h1

theorem Good.gam {u1 u2 L l l0 : ℝ} {it : Iter} {ca sa x1 σ : ℝ} (G : Good u1 u2 L l it ca sa x1 σ) :
    gam (cos u1) (sin u1) ca sa l0 σ = !₂[a * cos u2 * cos (l0 + l - delta (cos u1) (sin u1) ca sa σ),
      a * cos u2 * sin (l0 + l - delta (cos u1) (sin u1) ca sa σ), b * sin u2] := by
  unfold Geod.gam
  rw [G.end.1, G.end.2.1, G.end.2.2, show l0 + l - delta (cos u1) (sin u1) ca sa σ = (l0 - delta (cos u1) (sin u1) ca sa σ) + l by ring,
    cos_add, sin_add]
  refine ext3 ?_ ?_ ?_ <;> simp <;> ring

/-- The direction found is the one in which the geodesic leaves. -/
theorem azimuth {u1 u2 L l : ℝ} {it : Iter} {ca sa x1 σ : ℝ} (G : Good u1 u2 L l it ca sa x1 σ) :
    cos (radians (pmod (degrees (atan2 (cos u2 * it.sinL) (cos u1 * sin u2 - sin u1 * cos u2 * it.cosL))) 360)) = ca ∧
    sin (radians (pmod (degrees (atan2 (cos u2 * it.sinL) (cos u1 * sin u2 - sin u1 * cos u2 * it.cosL))) 360)) = sa := by
  obtain ⟨m, hm⟩ := radians_pmod (atan2 (cos u2 * it.sinL) (cos u1 * sin u2 - sin u1 * cos u2 * it.cosL))
  rw [hm, cos_sub_int_mul_two_pi, sin_sub_int_mul_two_pi, G.sinL, G.cosL, G.east, G.north]
  have h := atan2_cos_sin (sin σ * sa) (sin σ * ca)
  rw [show (sin σ * ca) ^ 2 + (sin σ * sa) ^ 2 = sin σ ^ 2 by linear_combination sin σ ^ 2 * G.A.az, sqrt_sq G.pos.le] at h
  exact ⟨mul_left_cancel₀ G.pos.ne' h.1, mul_left_cancel₀ G.pos.ne' h.2⟩

end Verif.Geod
