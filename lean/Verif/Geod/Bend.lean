import Verif.Geod.Motion
import Mathlib.Analysis.Calculus.MeanValue

/-! # How far a geodesic of the ellipsoid is from its chords -/

namespace Verif.Geod

open Verif.Globe (E3)
open Verif.Wgs (equatorial polar Ellipsoid)

/-- The greatest curvature of the ellipsoid, per metre. -/
noncomputable def bendMax : ℝ := equatorial / polar ^ 2

theorem polar_pos : 0 < polar := by unfold polar; norm_num
theorem equatorial_pos : 0 < equatorial := by unfold equatorial; norm_num
theorem polar_le : polar ≤ equatorial := by unfold polar equatorial; norm_num
theorem bendMax_pos : 0 < bendMax := div_pos equatorial_pos (pow_pos polar_pos 2)

/-- The form of the ellipsoid. -/
noncomputable def form (x y : E3) : ℝ := x 0 * y 0 / equatorial ^ 2 + x 1 * y 1 / equatorial ^ 2 + x 2 * y 2 / polar ^ 2

theorem form_normal (x y : E3) : form x y = inner ℝ (normal x) y := by
  unfold form normal
  simp [PiLp.inner_apply, Fin.sum_univ_three]
  ring

theorem norm_sq3 (x : E3) : ‖x‖ ^ 2 = x 0 ^ 2 + x 1 ^ 2 + x 2 ^ 2 := by
  rw [EuclideanSpace.norm_eq, Real.sq_sqrt (by positivity), Fin.sum_univ_three]
  simp

theorem form_le (x : E3) : form x x ≤ ‖x‖ ^ 2 / polar ^ 2 := by
  have hp := polar_pos
  have he := polar_le
  have h : ∀ z : ℝ, z * z / equatorial ^ 2 ≤ z * z / polar ^ 2 := fun z => by
    have := mul_self_nonneg z
    gcongr
  rw [norm_sq3]
  unfold form
  have h0 := h (x 0)
  have h1 := h (x 1)
  have e : (x 0 ^ 2 + x 1 ^ 2 + x 2 ^ 2) / polar ^ 2 = x 0 * x 0 / polar ^ 2 + x 1 * x 1 / polar ^ 2 + x 2 * x 2 / polar ^ 2 := by ring
  rw [e]
  linarith

theorem form_ge (x : E3) : ‖x‖ ^ 2 / equatorial ^ 2 ≤ form x x := by
  have hp := polar_pos
  have he := polar_le
  have h : x 2 * x 2 / equatorial ^ 2 ≤ x 2 * x 2 / polar ^ 2 := by
    have := mul_self_nonneg (x 2)
    gcongr
  rw [norm_sq3]
  unfold form
  have e : (x 0 ^ 2 + x 1 ^ 2 + x 2 ^ 2) / equatorial ^ 2 = x 0 * x 0 / equatorial ^ 2 + x 1 * x 1 / equatorial ^ 2 + x 2 * x 2 / equatorial ^ 2 := by ring
  rw [e]
  linarith

theorem form_nonneg (x : E3) : 0 ≤ form x x := (by positivity : (0 : ℝ) ≤ ‖x‖ ^ 2 / equatorial ^ 2).trans (form_ge x)

theorem hasDeriv_coord {γ : ℝ → E3} {d : E3} {t : ℝ} (h : HasDerivAt γ d t) (i : Fin 3) : HasDerivAt (fun t => γ t i) (d i) t :=
  (EuclideanSpace.proj (𝕜 := ℝ) i : E3 →L[ℝ] ℝ).hasFDerivAt.comp_hasDerivAt t h

theorem hasDeriv_form {γ δ : ℝ → E3} {d e : E3} {t : ℝ} (h : HasDerivAt γ d t) (h' : HasDerivAt δ e t) :
    HasDerivAt (fun t => form (γ t) (δ t)) (form d (δ t) + form (γ t) e) t := by
  have := ((((hasDeriv_coord h 0).mul (hasDeriv_coord h' 0)).div_const (equatorial ^ 2)).add
    (((hasDeriv_coord h 1).mul (hasDeriv_coord h' 1)).div_const (equatorial ^ 2))).add
    (((hasDeriv_coord h 2).mul (hasDeriv_coord h' 2)).div_const (polar ^ 2))
  refine this.congr_deriv ?_
  unfold form
  ring

theorem form_smul (r : ℝ) (x y : E3) : form (r • x) y = r * form x y ∧ form x (r • y) = r * form x y := by
  unfold form
  simp only [PiLp.smul_apply, smul_eq_mul]
  constructor <;> ring

theorem form_comm (x y : E3) : form x y = form y x := by unfold form; ring

variable {γ T : ℝ → E3} {v : ℝ → ℝ}

/-- The tangent is perpendicular to the normal. -/
theorem Geodesic.tangent (G : Geodesic γ T v) (t : ℝ) : form (γ t) (T t) = 0 := by
  have h := hasDeriv_form (G.vel t) (G.vel t)
  have h1 : (fun t => form (γ t) (γ t)) = fun _ => (1 : ℝ) := by
    funext x
    have := G.on x
    unfold Ellipsoid at this
    simp only [Set.mem_setOf_eq] at this
    unfold form
    rw [← this]
    ring
  rw [h1] at h
  have h2 := h.unique (hasDerivAt_const t 1)
  rw [(form_smul _ _ _).1, (form_smul _ _ _).2, form_comm (T t)] at h2
  have := G.pos t
  have : v t * form (γ t) (T t) = 0 := by linarith
  rcases mul_eq_zero.1 this with h3 | h3
  · linarith
  · exact h3

/-- How fast the tangent turns. -/
theorem Geodesic.bend (G : Geodesic γ T v) (t : ℝ) : ∃ d, HasDerivAt T d t ∧ ‖d‖ ≤ v t * bendMax := by
  obtain ⟨κ, h⟩ := G.straight t
  refine ⟨_, h, ?_⟩
  have hp := polar_pos
  have he := equatorial_pos
  have h1 := hasDeriv_form (G.vel t) h
  have h2 : (fun t => form (γ t) (T t)) = fun _ => (0 : ℝ) := funext G.tangent
  rw [h2] at h1
  have h3 := h1.unique (hasDerivAt_const t 0)
  rw [(form_smul _ _ _).1, (form_smul _ _ _).2, form_normal (γ t), real_inner_self_eq_norm_sq] at h3
  have h4 : inner ℝ (normal (γ t)) (γ t) = 1 := by
    rw [← form_normal]
    have := G.on t
    unfold Ellipsoid at this
    simp only [Set.mem_setOf_eq] at this
    unfold form
    rw [← this]
    ring
  have h5 : ‖γ t‖ ≤ equatorial := by
    have h6 := form_ge (γ t)
    rw [form_normal, h4, div_le_one (by positivity)] at h6
    exact (le_abs_self _).trans (abs_le_of_sq_le_sq h6 he.le)
  have h6 : 1 ≤ ‖normal (γ t)‖ * equatorial := by
    rw [← h4]
    exact (real_inner_le_norm _ _).trans (mul_le_mul_of_nonneg_left h5 (norm_nonneg _))
  have h7 := form_le (T t)
  rw [G.unit t, one_pow] at h7
  have h8 := form_nonneg (T t)
  have hv := (G.pos t).le
  rw [norm_smul, Real.norm_eq_abs]
  set N := ‖normal (γ t)‖ with hN
  have hN0 : 0 ≤ N := norm_nonneg _
  have h9 : |κ| * N ^ 2 = v t * form (T t) (T t) := by
    have : κ * N ^ 2 = -(v t * form (T t) (T t)) := by linarith
    rw [← abs_of_nonneg (sq_nonneg N), ← abs_mul, this, abs_neg, abs_of_nonneg (by positivity)]
  have h10 : |κ| * N ≤ |κ| * N ^ 2 * equatorial := by
    have := mul_le_mul_of_nonneg_left h6 (mul_nonneg (abs_nonneg κ) hN0)
    linarith
  have h11 : v t * form (T t) (T t) * equatorial ≤ v t * (1 / polar ^ 2) * equatorial := by gcongr
  unfold bendMax
  calc |κ| * N ≤ v t * form (T t) (T t) * equatorial := by rw [← h9]; exact h10
    _ ≤ v t * (1 / polar ^ 2) * equatorial := h11
    _ = v t * (equatorial / polar ^ 2) := by ring

theorem Geodesic.hasDeriv_length (G : Geodesic γ T v) (t : ℝ) : HasDerivAt (length v) (v t) t :=
  intervalIntegral.integral_hasDerivAt_right (G.cont.intervalIntegrable _ _) (G.cont.stronglyMeasurableAtFilter _ _) G.cont.continuousAt

theorem Geodesic.cont_T (G : Geodesic γ T v) : Continuous T := continuous_iff_continuousAt.2 fun t => by
  obtain ⟨κ, h⟩ := G.straight t
  exact h.continuousAt

theorem Geodesic.cont_γ (G : Geodesic γ T v) : Continuous γ := continuous_iff_continuousAt.2 fun t => (G.vel t).continuousAt

theorem Geodesic.turned (G : Geodesic γ T v) {s t : ℝ} (h : s ≤ t) : ‖T t - T s‖ ≤ bendMax * (length v t - length v s) := by
  choose d hd hb using G.bend
  refine image_norm_le_of_norm_deriv_right_le_deriv_boundary (f := fun x => T x - T s) (f' := d) (a := s) (b := t)
    (B := fun x => bendMax * (length v x - length v s)) (B' := fun x => bendMax * v x) ?_ ?_ ?_ ?_ ?_ (Set.right_mem_Icc.2 h)
  · exact (G.cont_T.sub continuous_const).continuousOn
  · exact fun x _ => ((hd x).sub_const _).hasDerivWithinAt
  · simp
  · exact fun x => ((G.hasDeriv_length x).sub_const _).const_mul _
  · exact fun x _ => by rw [mul_comm]; exact hb x

/-- A geodesic and its tangent. -/
theorem Geodesic.ahead (G : Geodesic γ T v) {s t : ℝ} (h : s ≤ t) :
    ‖γ t - γ s - (length v t - length v s) • T s‖ ≤ bendMax * (length v t - length v s) ^ 2 / 2 := by
  refine image_norm_le_of_norm_deriv_right_le_deriv_boundary (f := fun x => γ x - γ s - (length v x - length v s) • T s) (f' := fun x => v x • T x - v x • T s) (a := s) (b := t)
    (B := fun x => bendMax * (length v x - length v s) ^ 2 / 2) (B' := fun x => v x * (bendMax * (length v x - length v s))) ?_ ?_ ?_ ?_ ?_ (Set.right_mem_Icc.2 h)
  · have : Continuous (length v) := continuous_iff_continuousAt.2 fun x => (G.hasDeriv_length x).continuousAt
    have := G.cont_γ
    fun_prop
  · intro x _
    exact (((G.vel x).sub_const _).sub (((G.hasDeriv_length x).sub_const _).smul_const _)).hasDerivWithinAt
  · simp
  · intro x
    have := ((((G.hasDeriv_length x).sub_const (length v s)).pow 2).const_mul bendMax).div_const 2
    refine this.congr_deriv ?_
    simp
    ring
  · intro x hx
    rw [← smul_sub, norm_smul, Real.norm_eq_abs, abs_of_pos (G.pos x)]
    exact mul_le_mul_of_nonneg_left (G.turned hx.1) (G.pos x).le

/-- The same line in the opposite direction. -/
theorem Geodesic.back (G : Geodesic γ T v) : Geodesic (fun t => γ (-t)) (fun t => -T (-t)) (fun t => v (-t)) where
  on t := G.on _
  pos t := G.pos _
  vel t := by
    have : HasDerivAt (fun t => γ (-t)) _ t := (G.vel (-t)).scomp t (hasDerivAt_neg t)
    exact this.congr_deriv (by simp)
  unit t := by rw [norm_neg]; exact G.unit _
  straight t := by
    obtain ⟨κ, h⟩ := G.straight (-t)
    refine ⟨κ, ?_⟩
    have : HasDerivAt (fun t => -T (-t)) _ t := (h.scomp t (hasDerivAt_neg t)).neg
    exact this.congr_deriv (by simp)
  cont := G.cont.comp continuous_neg

theorem length_back (v : ℝ → ℝ) (t : ℝ) : length (fun t => v (-t)) t = -length v (-t) := by
  unfold length
  rw [intervalIntegral.integral_comp_neg, neg_zero, intervalIntegral.integral_symm]

theorem Geodesic.behind (G : Geodesic γ T v) {s t : ℝ} (h : t ≤ s) :
    ‖γ t - γ s - (length v t - length v s) • T s‖ ≤ bendMax * (length v t - length v s) ^ 2 / 2 := by
  have := G.back.ahead (neg_le_neg h)
  simp only [length_back, neg_neg] at this
  have e : -length v t - -length v s = -(length v t - length v s) := by ring
  rw [e, neg_smul_neg, neg_sq] at this
  exact this

/-- The points of a chord are near the points of the line. -/
theorem Geodesic.sagitta (G : Geodesic γ T v) {r s t : ℝ} (h1 : r ≤ s) (h2 : s ≤ t) (l : ℝ) (hl : length v s = length v r + l * (length v t - length v r)) :
    dist (γ s) (γ r + l • (γ t - γ r)) ≤ bendMax * (length v t - length v r) ^ 2 / 8 := by
  have hm : ∀ {x y}, x ≤ y → length v x ≤ length v y := fun {x y} h => by
    have := length_sub G x y
    have := intervalIntegral.integral_nonneg (μ := MeasureTheory.volume) h fun t (_ : t ∈ Set.Icc x y) => (G.pos t).le
    linarith
  have hK := bendMax_pos
  by_cases hL : length v t = length v r
  · have e1 : length v s = length v r := le_antisymm (by rw [← hL]; exact hm h2) (hm h1)
    have c1 := G.chord s r
    have c2 := G.chord t r
    rw [e1, sub_self, abs_zero] at c1
    rw [hL, sub_self, abs_zero] at c2
    have c1 := dist_le_zero.1 c1
    have c2 := dist_le_zero.1 c2
    rw [c1, c2, hL]
    simp
  · have hpos : 0 < length v t - length v r := by
      have := hm (h1.trans h2)
      rcases lt_or_eq_of_le this with h | h
      · linarith
      · exact absurd h.symm hL
    have hl0 : 0 ≤ l := by
      have := hm h1
      by_contra hc
      have := mul_neg_of_neg_of_pos (not_le.1 hc) hpos
      linarith
    have hl1 : l ≤ 1 := by
      have := hm h2
      by_contra hc
      have := mul_lt_mul_of_pos_right (not_le.1 hc) hpos
      linarith
    set L := length v t - length v r with hLd
    have a1 := G.behind h1
    have a2 := G.ahead h2
    have e1 : length v r - length v s = -(l * L) := by linarith
    have e2 : length v t - length v s = (1 - l) * L := by rw [hl]; linarith
    rw [e1] at a1
    rw [e2] at a2
    have key : γ s - (γ r + l • (γ t - γ r)) = -((1 - l) • (γ r - γ s - (-(l * L)) • T s) + l • (γ t - γ s - ((1 - l) * L) • T s)) := by
      module
    rw [dist_eq_norm, key, norm_neg]
    refine (norm_add_le _ _).trans ?_
    rw [norm_smul, norm_smul, Real.norm_eq_abs, Real.norm_eq_abs, abs_of_nonneg hl0, abs_of_nonneg (by linarith : 0 ≤ 1 - l)]
    have b1 := mul_le_mul_of_nonneg_left a1 (by linarith : 0 ≤ 1 - l)
    have b2 := mul_le_mul_of_nonneg_left a2 hl0
    have b3 : (1 - l) * (bendMax * (-(l * L)) ^ 2 / 2) + l * (bendMax * ((1 - l) * L) ^ 2 / 2) = bendMax * L ^ 2 / 2 * (l * (1 - l)) := by ring
    have b4 : l * (1 - l) ≤ 1 / 4 := by nlinarith [sq_nonneg (l - 1 / 2)]
    have b5 := mul_le_mul_of_nonneg_left b4 (by positivity : 0 ≤ bendMax * L ^ 2 / 2)
    linarith

end Verif.Geod
