import Verif.Geod.Model
import Verif.Geod.Spec
import Verif.Wgs.Conv
import Mathlib.Analysis.SpecialFunctions.Trigonometric.Deriv
import Mathlib.Analysis.SpecialFunctions.Sqrt
import Mathlib.Analysis.Calculus.Deriv.Prod
import Mathlib.Analysis.InnerProductSpace.Calculus

/-!
# The geodesics

A great circle of the auxiliary sphere, turned about the axis while it is passed, is a geodesic of the ellipsoid after stretching.
-/

namespace Verif.Geod

open Real
open Verif.Wgs
open Verif.Globe (E3 ext3 inner3)

/-! ### the great circle -/

section
variable (cu su ca sa l : ℝ)

noncomputable def g1 (t : ℝ) : ℝ := cu * cos t - su * ca * sin t
noncomputable def g2 (t : ℝ) : ℝ := sa * sin t
noncomputable def g3 (t : ℝ) : ℝ := su * cos t + cu * ca * sin t
noncomputable def d1 (t : ℝ) : ℝ := -cu * sin t - su * ca * cos t
noncomputable def d2 (t : ℝ) : ℝ := sa * cos t
noncomputable def d3 (t : ℝ) : ℝ := -su * sin t + cu * ca * cos t

noncomputable def w (t : ℝ) : ℝ := √(1 - e2 * (1 - g3 cu su ca t ^ 2))
/-- The rate of turning. -/
noncomputable def turn (t : ℝ) : ℝ := e2 * (cu * sa) / (1 + w cu su ca t)
noncomputable def delta (t : ℝ) : ℝ := ∫ x in (0 : ℝ)..t, turn cu su ca sa x
noncomputable def gam (t : ℝ) : E3 :=
  !₂[a * (g1 cu su ca t * cos (l - delta cu su ca sa t) - g2 sa t * sin (l - delta cu su ca sa t)),
     a * (g1 cu su ca t * sin (l - delta cu su ca sa t) + g2 sa t * cos (l - delta cu su ca sa t)), b * g3 cu su ca t]
noncomputable def h1 (t : ℝ) : ℝ := (d1 cu su ca t + turn cu su ca sa t * g2 sa t) / w cu su ca t
noncomputable def h2 (t : ℝ) : ℝ := (d2 sa t - turn cu su ca sa t * g1 cu su ca t) / w cu su ca t
noncomputable def h3 (t : ℝ) : ℝ := (1 - f) * d3 cu su ca t / w cu su ca t
noncomputable def tang (t : ℝ) : E3 :=
  !₂[h1 cu su ca sa t * cos (l - delta cu su ca sa t) - h2 cu su ca sa t * sin (l - delta cu su ca sa t),
     h1 cu su ca sa t * sin (l - delta cu su ca sa t) + h2 cu su ca sa t * cos (l - delta cu su ca sa t), h3 cu su ca t]
end

/-- Cosines and sines of a latitude and an azimuth. -/
structure Ang (cu su ca sa : ℝ) : Prop where
  u : cu ^ 2 + su ^ 2 = 1
  az : ca ^ 2 + sa ^ 2 = 1

variable {cu su ca sa l : ℝ}

theorem hasDeriv_g1 (t : ℝ) : HasDerivAt (g1 cu su ca) (d1 cu su ca t) t := by
  unfold g1 d1
  have := ((hasDerivAt_cos t).const_mul cu).sub ((hasDerivAt_sin t).const_mul (su * ca))
  exact this.congr_deriv (by ring)

theorem hasDeriv_g2 (t : ℝ) : HasDerivAt (g2 sa) (d2 sa t) t := (hasDerivAt_sin t).const_mul sa

theorem hasDeriv_g3 (t : ℝ) : HasDerivAt (g3 cu su ca) (d3 cu su ca t) t := by
  unfold g3 d3
  have := ((hasDerivAt_cos t).const_mul su).add ((hasDerivAt_sin t).const_mul (cu * ca))
  exact this.congr_deriv (by ring)

theorem hasDeriv_d1 (t : ℝ) : HasDerivAt (d1 cu su ca) (-g1 cu su ca t) t := by
  unfold d1 g1
  have := ((hasDerivAt_sin t).const_mul (-cu)).sub ((hasDerivAt_cos t).const_mul (su * ca))
  exact this.congr_deriv (by ring)

theorem hasDeriv_d2 (t : ℝ) : HasDerivAt (d2 sa) (-g2 sa t) t := by
  unfold d2 g2
  have := (hasDerivAt_cos t).const_mul sa
  exact this.congr_deriv (by ring)

theorem hasDeriv_d3 (t : ℝ) : HasDerivAt (d3 cu su ca) (-g3 cu su ca t) t := by
  unfold d3 g3
  have := ((hasDerivAt_sin t).const_mul (-su)).add ((hasDerivAt_cos t).const_mul (cu * ca))
  exact this.congr_deriv (by ring)

/-- The algebra of the geodesic: `x'` are first derivatives of the great circle, `τ` the rate of turning. -/
theorem bend_alg {G D H E G3 D3 S W e τ τ2 wp : ℝ} (hW : 0 < W) (k1 : G ^ 2 + H ^ 2 + G3 ^ 2 = 1) (k2 : G * D + H * E + G3 * D3 = 0)
    (k3 : G * E - H * D = S) (k4 : D3 ^ 2 = 1 - G3 ^ 2 - S ^ 2) (k5 : W ^ 2 = 1 - e * (1 - G3 ^ 2)) (hτ : τ * (1 + W) = e * S)
    (hwp : W * wp = e * (G3 * D3)) (hτ2 : τ2 * (1 + W) = -(τ * wp)) :
    W ^ 2 * (-G + τ2 * H + 2 * τ * E - τ ^ 2 * G) - W * wp * (D + τ * H) + (1 - e) * G * (W ^ 2 + e * D3 ^ 2) = 0 := by
  have h1W : 1 + W ≠ 0 := by positivity
  by_cases hR : 1 - G3 ^ 2 = 0
  · have hG : G = 0 := by nlinarith [sq_nonneg G, sq_nonneg H]
    have hH : H = 0 := by nlinarith [sq_nonneg G, sq_nonneg H]
    have hD3 : D3 = 0 := by nlinarith [sq_nonneg D3, sq_nonneg S]
    have hS : S = 0 := by nlinarith [sq_nonneg D3, sq_nonneg S]
    have ht : τ = 0 := by
      rw [hS, mul_zero] at hτ
      exact (mul_eq_zero.mp hτ).resolve_right h1W
    rw [hwp, hG, hH, hD3, ht]
    ring
  · have r1 : (1 - G3 ^ 2) * E = S * G - G3 * D3 * H := by linear_combination (-E) * k1 + H * k2 + G * k3
    have r2 : (1 - G3 ^ 2) * D = -(S * H) - G3 * D3 * G := by linear_combination (-D) * k1 + G * k2 - H * k3
    have r3 : τ * (1 - G3 ^ 2) = S * (1 - W) := by
      apply mul_right_cancel₀ h1W
      linear_combination (1 - G3 ^ 2) * hτ + S * k5
    have r4 : 2 * τ * S - τ ^ 2 * (1 - G3 ^ 2) = e * S ^ 2 := by linear_combination (-τ) * r3 + S * hτ
    have X1 : W ^ 2 * (-(1 - G3 ^ 2) + (2 * τ * S - τ ^ 2 * (1 - G3 ^ 2))) + W * wp * (G3 * D3) + (1 - e) * (1 - G3 ^ 2) * (W ^ 2 + e * D3 ^ 2) = 0 := by
      rw [r4, hwp]
      linear_combination (e * G3 ^ 2 + (1 - e) * (1 - G3 ^ 2) * e) * k4 + (-(1 - G3 ^ 2) + e * S ^ 2 + (1 - e) * (1 - G3 ^ 2)) * k5
    have X2 : W ^ 2 * ((1 - G3 ^ 2) * τ2 - 2 * τ * (G3 * D3)) - W * wp * (-S + τ * (1 - G3 ^ 2)) = 0 := by
      apply mul_right_cancel₀ h1W
      rw [r3]
      linear_combination W ^ 2 * (1 - G3 ^ 2) * hτ2 - 2 * W ^ 2 * (G3 * D3) * hτ - W ^ 2 * wp * r3 + 2 * W ^ 2 * S * hwp
    apply mul_left_cancel₀ hR
    linear_combination G * X1 + H * X2 + 2 * τ * W ^ 2 * r1 - W * wp * r2

namespace Ang
variable (A : Ang cu su ca sa)
include A

theorem one (t : ℝ) : g1 cu su ca t ^ 2 + g2 sa t ^ 2 + g3 cu su ca t ^ 2 = 1 := by
  unfold g1 g2 g3
  linear_combination (cos t ^ 2 + ca ^ 2 * sin t ^ 2) * A.u + sin t ^ 2 * A.az + sin_sq_add_cos_sq t

theorem dot (t : ℝ) : g1 cu su ca t * d1 cu su ca t + g2 sa t * d2 sa t + g3 cu su ca t * d3 cu su ca t = 0 := by
  unfold g1 g2 g3 d1 d2 d3
  linear_combination (-(cos t * sin t) + ca ^ 2 * sin t * cos t) * A.u + sin t * cos t * A.az

theorem done (t : ℝ) : d1 cu su ca t ^ 2 + d2 sa t ^ 2 + d3 cu su ca t ^ 2 = 1 := by
  unfold d1 d2 d3
  linear_combination (sin t ^ 2 + ca ^ 2 * cos t ^ 2) * A.u + cos t ^ 2 * A.az + sin_sq_add_cos_sq t

theorem mom (t : ℝ) : g1 cu su ca t * d2 sa t - g2 sa t * d1 cu su ca t = cu * sa := by
  unfold g1 g2 d1 d2
  linear_combination (cu * sa) * sin_sq_add_cos_sq t

/-- The square of the speed upwards. -/
theorem d3_sq (t : ℝ) : d3 cu su ca t ^ 2 = 1 - g3 cu su ca t ^ 2 - (cu * sa) ^ 2 := by
  unfold d3 g3
  linear_combination (su ^ 2 + cu ^ 2 * ca ^ 2) * sin_sq_add_cos_sq t + A.u + cu ^ 2 * A.az

theorem g3_le (t : ℝ) : g3 cu su ca t ^ 2 ≤ 1 := by
  have := A.one t; nlinarith [sq_nonneg (g1 cu su ca t), sq_nonneg (g2 sa t)]

theorem w_arg (t : ℝ) : 0 < 1 - e2 * (1 - g3 cu su ca t ^ 2) := by
  have := A.g3_le t; have := e2_pos; have := e2_lt; nlinarith [sq_nonneg (g3 cu su ca t)]

theorem w_sq (t : ℝ) : w cu su ca t ^ 2 = 1 - e2 * (1 - g3 cu su ca t ^ 2) := sq_sqrt (A.w_arg t).le

theorem w_pos (t : ℝ) : 0 < w cu su ca t := sqrt_pos.mpr (A.w_arg t)

theorem hasDeriv_w (t : ℝ) : HasDerivAt (w cu su ca) (e2 * (g3 cu su ca t * d3 cu su ca t) / w cu su ca t) t := by
  have h := ((((hasDeriv_g3 (cu := cu) (su := su) (ca := ca) t).pow 2).const_sub 1).const_mul e2).const_sub 1
  have := h.sqrt (A.w_arg t).ne'
  have hw := A.w_pos t
  refine this.congr_deriv ?_
  have e : √(1 - e2 * (1 - (g3 cu su ca ^ 2) t)) = w cu su ca t := rfl
  rw [e]
  simp only [Nat.cast_ofNat]
  field_simp
  ring

theorem cont_w : Continuous (w cu su ca) := by
  rw [continuous_iff_continuousAt]
  exact fun t => (A.hasDeriv_w t).continuousAt

theorem cont_turn : Continuous (turn cu su ca sa) := by
  unfold turn
  exact continuous_const.div (continuous_const.add A.cont_w) (fun t => by have := A.w_pos t; positivity)

theorem hasDeriv_delta (t : ℝ) : HasDerivAt (delta cu su ca sa) (turn cu su ca sa t) t :=
  intervalIntegral.integral_hasDerivAt_right (A.cont_turn.intervalIntegrable 0 t) (A.cont_turn.stronglyMeasurableAtFilter _ _)
    A.cont_turn.continuousAt

theorem hasDeriv_turn (t : ℝ) : HasDerivAt (turn cu su ca sa)
    (-(e2 * (cu * sa)) * (e2 * (g3 cu su ca t * d3 cu su ca t) / w cu su ca t) / (1 + w cu su ca t) ^ 2) t := by
  have hw := A.w_pos t
  have := (hasDerivAt_const t (e2 * (cu * sa))).div ((A.hasDeriv_w t).const_add 1) (by positivity)
  refine this.congr_deriv ?_
  simp

/-- The turning of the tangent, in the turned frame. -/
theorem bend1 (t : ℝ) : HasDerivAt (h1 cu su ca sa)
    (-(1 - e2) * g1 cu su ca t * (w cu su ca t ^ 2 + e2 * d3 cu su ca t ^ 2) / w cu su ca t ^ 3 - turn cu su ca sa t * h2 cu su ca sa t) t := by
  have hw := A.w_pos t
  have h := ((hasDeriv_d1 (cu := cu) (su := su) (ca := ca) t).add ((A.hasDeriv_turn t).mul (hasDeriv_g2 (sa := sa) t))).div (A.hasDeriv_w t) hw.ne'
  refine h.congr_deriv ?_
  simp only [Pi.add_apply, Pi.mul_apply]
  unfold h2
  have h1W : 1 + w cu su ca t ≠ 0 := by positivity
  have hτ : turn cu su ca sa t * (1 + w cu su ca t) = e2 * (cu * sa) := div_mul_cancel₀ _ h1W
  have key := bend_alg (wp := e2 * (g3 cu su ca t * d3 cu su ca t) / w cu su ca t)
    (τ2 := -(e2 * (cu * sa)) * (e2 * (g3 cu su ca t * d3 cu su ca t) / w cu su ca t) / (1 + w cu su ca t) ^ 2)
    hw (A.one t) (A.dot t) (A.mom t) (A.d3_sq t) (A.w_sq t) hτ (mul_div_cancel₀ _ hw.ne') (by
      rw [← hτ]; field_simp)
  generalize -(e2 * (cu * sa)) * (e2 * (g3 cu su ca t * d3 cu su ca t) / w cu su ca t) / (1 + w cu su ca t) ^ 2 = τ2 at *
  generalize e2 * (g3 cu su ca t * d3 cu su ca t) / w cu su ca t = wp at *
  generalize turn cu su ca sa t = τ at *
  generalize w cu su ca t = W at *
  field_simp
  linear_combination key

theorem bend2 (t : ℝ) : HasDerivAt (h2 cu su ca sa)
    (-(1 - e2) * g2 sa t * (w cu su ca t ^ 2 + e2 * d3 cu su ca t ^ 2) / w cu su ca t ^ 3 + turn cu su ca sa t * h1 cu su ca sa t) t := by
  have hw := A.w_pos t
  have h := ((hasDeriv_d2 (sa := sa) t).sub ((A.hasDeriv_turn t).mul (hasDeriv_g1 (cu := cu) (su := su) (ca := ca) t))).div (A.hasDeriv_w t) hw.ne'
  refine h.congr_deriv ?_
  simp only [Pi.sub_apply, Pi.mul_apply]
  unfold h1
  have h1W : 1 + w cu su ca t ≠ 0 := by positivity
  have hτ : turn cu su ca sa t * (1 + w cu su ca t) = e2 * (cu * sa) := div_mul_cancel₀ _ h1W
  have key := bend_alg (G := g2 sa t) (D := d2 sa t) (H := g1 cu su ca t) (E := d1 cu su ca t) (S := -(cu * sa)) (τ := -turn cu su ca sa t)
    (wp := e2 * (g3 cu su ca t * d3 cu su ca t) / w cu su ca t)
    (τ2 := -(-(e2 * (cu * sa)) * (e2 * (g3 cu su ca t * d3 cu su ca t) / w cu su ca t) / (1 + w cu su ca t) ^ 2))
    hw (by linear_combination A.one t) (by linear_combination A.dot t) (by linear_combination (-1 : ℝ) * A.mom t)
    (by linear_combination A.d3_sq t) (A.w_sq t) (by linear_combination (-1 : ℝ) * hτ) (mul_div_cancel₀ _ hw.ne') (by
      rw [← hτ]; field_simp)
  generalize -(e2 * (cu * sa)) * (e2 * (g3 cu su ca t * d3 cu su ca t) / w cu su ca t) / (1 + w cu su ca t) ^ 2 = τ2 at *
  generalize e2 * (g3 cu su ca t * d3 cu su ca t) / w cu su ca t = wp at *
  generalize turn cu su ca sa t = τ at *
  generalize w cu su ca t = W at *
  field_simp
  linear_combination key

theorem bend3 (t : ℝ) : HasDerivAt (h3 cu su ca)
    (-(1 - f) * g3 cu su ca t * (w cu su ca t ^ 2 + e2 * d3 cu su ca t ^ 2) / w cu su ca t ^ 3) t := by
  have hw := A.w_pos t
  have h := ((hasDeriv_d3 (cu := cu) (su := su) (ca := ca) t).const_mul (1 - f)).div (A.hasDeriv_w t) hw.ne'
  refine h.congr_deriv ?_
  generalize w cu su ca t = W at *
  field_simp
  ring

theorem unit_tang (t : ℝ) : h1 cu su ca sa t ^ 2 + h2 cu su ca sa t ^ 2 + h3 cu su ca t ^ 2 = 1 := by
  have hw := A.w_pos t
  have h1W : 1 + w cu su ca t ≠ 0 := by positivity
  have hτ : turn cu su ca sa t * (1 + w cu su ca t) = e2 * (cu * sa) := div_mul_cancel₀ _ h1W
  have k1 := A.one t
  have k6 := A.done t
  have k3 := A.mom t
  have k4 := A.d3_sq t
  have k5 := A.w_sq t
  have hf := one_sub_e2
  unfold h1 h2 h3
  generalize turn cu su ca sa t = τ at *
  generalize w cu su ca t = W at *
  have r3 : τ * (1 - g3 cu su ca t ^ 2) = cu * sa * (1 - W) := by
    apply mul_right_cancel₀ h1W
    linear_combination (1 - g3 cu su ca t ^ 2) * hτ + cu * sa * k5
  have : (d1 cu su ca t + τ * g2 sa t) ^ 2 + (d2 sa t - τ * g1 cu su ca t) ^ 2 + ((1 - f) * d3 cu su ca t) ^ 2 = W ^ 2 := by
    rw [mul_pow, ← hf]
    linear_combination k6 + τ ^ 2 * k1 - 2 * τ * k3 - e2 * k4 + τ * r3 - k5 - cu * sa * hτ
  rw [div_pow, div_pow, div_pow, ← add_div, ← add_div, this]
  exact div_self (by positivity)

end Ang

theorem hasDeriv_vec {x y z : ℝ → ℝ} {x' y' z' t : ℝ} (hx : HasDerivAt x x' t) (hy : HasDerivAt y y' t) (hz : HasDerivAt z z' t) :
    HasDerivAt (fun t => (!₂[x t, y t, z t] : E3)) !₂[x', y', z'] t := by
  rw [hasDerivAt_iff_hasFDerivAt, ← hasFDerivWithinAt_univ, hasFDerivWithinAt_euclidean]
  intro i
  rw [hasFDerivWithinAt_univ]
  rw [show (PiLp.proj 2 (fun _ : Fin 3 => ℝ) i).comp (ContinuousLinearMap.toSpanSingleton ℝ (!₂[x', y', z'] : E3)) =
    ContinuousLinearMap.toSpanSingleton ℝ ((!₂[x', y', z'] : E3) i) by ext; simp, ← hasDerivAt_iff_hasFDerivAt]
  fin_cases i
  · exact hx
  · exact hy
  · exact hz

/-- The stretched and turned great circle is a geodesic, passed with speed `a w`. -/
theorem Ang.geodesic (A : Ang cu su ca sa) : Geodesic (gam cu su ca sa l) (tang cu su ca sa l) (fun t => a * w cu su ca t) where
  on t := by
    have h := A.one t
    have hpy := sin_sq_add_cos_sq (l - delta cu su ca sa t)
    have ha := a_pos.ne'
    have hb := b_pos.ne'
    have e1 : equatorial = a := rfl
    have e2' : polar = b := by unfold polar b a f; ring
    show (_ ^ 2 / equatorial ^ 2 + _ ^ 2 / equatorial ^ 2 + _ ^ 2 / polar ^ 2 : ℝ) = 1
    rw [e1, e2']
    simp [gam]
    rw [mul_pow, mul_pow, mul_pow, mul_div_cancel_left₀ _ (pow_ne_zero 2 ha), mul_div_cancel_left₀ _ (pow_ne_zero 2 ha),
      mul_div_cancel_left₀ _ (pow_ne_zero 2 hb)]
    linear_combination h + (g1 cu su ca t ^ 2 + g2 sa t ^ 2) * hpy
  pos t := mul_pos a_pos (A.w_pos t)
  vel t := by
    have hw := A.w_pos t
    have hθ := (A.hasDeriv_delta t).const_sub l
    have hc := hθ.cos
    have hs := hθ.sin
    have hg1 := hasDeriv_g1 (cu := cu) (su := su) (ca := ca) t
    have hg2 := hasDeriv_g2 (sa := sa) t
    have hg3 := hasDeriv_g3 (cu := cu) (su := su) (ca := ca) t
    have := hasDeriv_vec (((hg1.mul hc).sub (hg2.mul hs)).const_mul a) (((hg1.mul hs).add (hg2.mul hc)).const_mul a) (hg3.const_mul b)
    refine this.congr_deriv ?_
    unfold tang h1 h2 h3
    have hb : b = a * (1 - f) := rfl
    refine ext3 ?_ ?_ ?_ <;> simp <;> field_simp
    · ring
    · ring
    · rw [hb]; ring
  unit t := by
    have h := A.unit_tang t
    have hpy := sin_sq_add_cos_sq (l - delta cu su ca sa t)
    unfold tang
    rw [EuclideanSpace.norm_eq, sqrt_eq_one]
    simp [Fin.sum_univ_three]
    linear_combination h + (h1 cu su ca sa t ^ 2 + h2 cu su ca sa t ^ 2) * hpy
  straight t := by
    have hw := A.w_pos t
    have hθ := (A.hasDeriv_delta t).const_sub l
    have hc := hθ.cos
    have hs := hθ.sin
    have hg1 := A.bend1 t
    have hg2 := A.bend2 t
    have hg3 := A.bend3 t
    have ha := a_pos.ne'
    have hb' := b_pos.ne'
    have hf : (1 - f) ≠ 0 := by have := f_lt; linarith
    have hb : b = a * (1 - f) := rfl
    have e1 : equatorial = a := rfl
    have e2' : polar = b := by unfold polar b a f; ring
    have he := one_sub_e2
    have := hasDeriv_vec ((hg1.mul hc).sub (hg2.mul hs)) ((hg1.mul hs).add (hg2.mul hc)) hg3
    refine ⟨-(1 - e2) * a * (w cu su ca t ^ 2 + e2 * d3 cu su ca t ^ 2) / w cu su ca t ^ 3, ?_⟩
    refine this.congr_deriv ?_
    unfold normal gam
    rw [e1, e2', hb]
    refine ext3 ?_ ?_ ?_ <;> simp <;> field_simp
    · ring
    · ring
    · linear_combination g3 cu su ca t * (w cu su ca t ^ 2 + e2 * d3 cu su ca t ^ 2) * he
  cont := continuous_const.mul A.cont_w

end Verif.Geod
