import Verif.Geod.Bend
import Verif.Geod.West
import Mathlib.Analysis.Calculus.Deriv.MeanValue
import Mathlib.Topology.EMetricSpace.BoundedVariation

/-! # How far a geodesic of the ellipsoid gets: lines between the same places are nearly equally long -/

namespace Verif.Geod

open Verif.Globe (E3 LL radians)
open Verif.Wgs (equatorial polar a a_pos)
open Real

variable {γ T : ℝ → E3} {v : ℝ → ℝ}

theorem Geodesic.length_mono (G : Geodesic γ T v) : StrictMono (length v) := fun x y h => by
  have := length_sub G x y
  have : 0 < ∫ t in x..y, v t := intervalIntegral.intervalIntegral_pos_of_pos (G.cont.intervalIntegrable _ _) G.pos h
  linarith

/-- Progress in the first direction. -/
theorem Geodesic.onward (G : Geodesic γ T v) {s t : ℝ} (h : s ≤ t) :
    length v t - length v s - bendMax ^ 2 * (length v t - length v s) ^ 3 / 6 ≤ inner ℝ (γ t - γ s) (T s) := by
  have hd : ∀ x, HasDerivAt (fun x => inner ℝ (γ x - γ s) (T s) - (length v x - length v s) + bendMax ^ 2 * (length v x - length v s) ^ 3 / 6)
      (v x * (inner ℝ (T x) (T s) - 1 + bendMax ^ 2 * (length v x - length v s) ^ 2 / 2)) x := fun x => by
    have h1 := ((G.vel x).sub_const (γ s)).inner ℝ (hasDerivAt_const x (T s))
    have h2 := (G.hasDeriv_length x).sub_const (length v s)
    have h3 := ((h2.pow 3).const_mul (bendMax ^ 2)).div_const 6
    refine ((h1.sub h2).add h3).congr_deriv ?_
    simp only [inner_zero_right, zero_add, inner_smul_left, conj_trivial]
    push_cast
    ring
  have hm : MonotoneOn (fun x => inner ℝ (γ x - γ s) (T s) - (length v x - length v s) + bendMax ^ 2 * (length v x - length v s) ^ 3 / 6) (Set.Ici s) := by
    refine monotoneOn_of_deriv_nonneg (convex_Ici s) (fun x _ => (hd x).continuousAt.continuousWithinAt) (fun x _ => (hd x).differentiableAt.differentiableWithinAt) fun x hx => ?_
    rw [interior_Ici] at hx
    rw [(hd x).deriv]
    refine mul_nonneg (G.pos x).le ?_
    have h1 := G.turned (le_of_lt hx)
    have h2 : ‖T x - T s‖ ^ 2 ≤ (bendMax * (length v x - length v s)) ^ 2 := by gcongr
    rw [norm_sub_sq_real, G.unit, G.unit] at h2
    rw [mul_pow] at h2
    linarith
  have := hm (Set.mem_Ici.2 le_rfl) (Set.mem_Ici.2 h) h
  simp at this
  linarith

theorem Geodesic.onback (G : Geodesic γ T v) {s t : ℝ} (h : t ≤ s) :
    length v s - length v t - bendMax ^ 2 * (length v s - length v t) ^ 3 / 6 ≤ inner ℝ (γ s - γ t) (T s) := by
  have := G.back.onward (neg_le_neg h)
  simp only [length_back, neg_neg] at this
  have e : -length v t - -length v s = length v s - length v t := by ring
  rw [e, inner_neg_right, ← inner_neg_left, neg_sub] at this
  exact this

/-- The ends of a geodesic are nearly as far apart in space as it is long. -/
theorem Geodesic.reach (G : Geodesic γ T v) {r t : ℝ} (h : r ≤ t) :
    length v t - length v r - bendMax ^ 2 * (length v t - length v r) ^ 3 / 24 ≤ dist (γ t) (γ r) := by
  have hc : Continuous (length v) := continuous_iff_continuousAt.2 fun x => (G.hasDeriv_length x).continuousAt
  have hl := G.length_mono.monotone h
  obtain ⟨m, ⟨hm1, hm2⟩, hm⟩ := intermediate_value_Icc h hc.continuousOn (show (length v r + length v t) / 2 ∈ Set.Icc (length v r) (length v t) from ⟨by linarith, by linarith⟩)
  have h1 := G.onward hm2
  have h2 := G.onback hm1
  have h3 : inner ℝ (γ t - γ r) (T m) ≤ dist (γ t) (γ r) := by
    have := real_inner_le_norm (γ t - γ r) (T m)
    rwa [G.unit, mul_one, ← dist_eq_norm] at this
  have e1 : inner ℝ (γ t - γ r) (T m) = inner ℝ (γ t - γ m) (T m) + inner ℝ (γ m - γ r) (T m) := by
    rw [← inner_add_left]; congr 1; abel
  have e2 : length v t - length v m = (length v t - length v r) / 2 := by rw [hm]; ring
  have e3 : length v m - length v r = (length v t - length v r) / 2 := by rw [hm]; ring
  rw [e2] at h1
  rw [e3] at h2
  have e4 : bendMax ^ 2 * ((length v t - length v r) / 2) ^ 3 / 6 = bendMax ^ 2 * (length v t - length v r) ^ 3 / 24 / 2 := by ring
  rw [e4] at h1 h2
  linarith

theorem bend_num : bendMax ^ 2 / 24 ≤ 1 / 9.6e14 := by unfold bendMax equatorial polar; norm_num

/-- The same for a line from one place to another. -/
theorem Leads.reach {x u y : E3} {s : ℝ} (h : Leads x u s y) (hs : 0 ≤ s) : s - s ^ 3 / 9.6e14 ≤ dist y x ∧ dist y x ≤ s := by
  obtain ⟨γ, T, v, G, rfl, -, t, rfl, rfl⟩ := h
  have h0 : length v 0 = 0 := by unfold length; simp
  have ht : 0 ≤ t := by
    by_contra hn
    have := G.length_mono (not_le.1 hn)
    linarith
  have h1 := G.reach ht
  have h2 := G.chord t 0
  rw [h0, sub_zero] at h1 h2
  rw [abs_of_nonneg hs] at h2
  have h3 := mul_le_mul_of_nonneg_right bend_num (pow_nonneg hs 3)
  refine ⟨?_, h2⟩
  have e1 : bendMax ^ 2 * length v t ^ 3 / 24 = bendMax ^ 2 / 24 * length v t ^ 3 := by ring
  have e2 : length v t ^ 3 / 9.6e14 = 1 / 9.6e14 * length v t ^ 3 := by ring
  linarith

theorem cube_near {D s : ℝ} (h0 : 0 ≤ s) (h1 : s ≤ 2.1e7) (h : |D - s| ≤ 0.00011) : s ^ 3 ≤ D ^ 3 + 0.15e12 := by
  obtain ⟨h2, h3⟩ := abs_le.1 h
  have h4 : s ≤ D + 0.00011 := by linarith
  have hD : D ≤ 2.11e7 := by linarith
  have h5 : s ^ 3 ≤ (D + 0.00011) ^ 3 := by gcongr
  have hD0 : -0.00011 ≤ D := by linarith
  have h6 : D ^ 2 ≤ 2.11e7 ^ 2 := by nlinarith
  nlinarith

/-- **C71, no detours.** The distance reported is that in space, but for the curvature: no path whatever between the places is shorter than it by
more than its cube over 9.6e14 metres (1.05 m for 100 km) and a millimetre or two. -/
theorem c71_short {k tol : ℝ} {n : ℕ} {p q : LL} {d β : ℝ} (hk : 0 < k) (ht : 0 < tol) (hp : Lat p) (hq : Lat q)
    (h : distBearing k tol n p q = .ok (d, β)) (c : ℝ → E3) (h0 : c 0 = ground p) (h1 : c 1 = ground q) :
    ENNReal.ofReal (d * k - (d * k) ^ 3 / 9.6e14 - (0.0012 + a * tol)) ≤ eVariationOn c (Set.Icc 0 1) ∧ dist (ground p) (ground q) ≤ d * k + (0.001 + a * tol) := by
  obtain ⟨s, y, hl, hs0, hs1, hd, hy⟩ := c71_inverse hk ht hp hq h
  obtain ⟨r1, r2⟩ := hl.reach hs0
  have hs2 : s ≤ 2.1e7 := by
    have := pi_lt_d2
    have ha : a = 6378137 := rfl
    rw [ha] at hs1
    norm_num at this ⊢
    linarith
  have hc := cube_near hs0 hs2 hd
  have t1 := dist_triangle y (ground q) (ground p)
  have t2 := dist_triangle (ground q) y (ground p)
  rw [dist_comm (ground q) y] at t2
  rw [dist_comm (ground q)] at t1 t2
  obtain ⟨d1, d2⟩ := abs_le.1 hd
  constructor
  · refine le_trans ?_ (eVariationOn.edist_le c (Set.left_mem_Icc.2 zero_le_one) (Set.right_mem_Icc.2 zero_le_one))
    rw [edist_dist, h0, h1]
    refine ENNReal.ofReal_le_ofReal ?_
    have : s ^ 3 / 9.6e14 ≤ ((d * k) ^ 3 + 0.15e12) / 9.6e14 := by gcongr
    norm_num at *
    linarith
  · norm_num at *
    linarith

/-- One degree of the equator: the distance reported is between 111 and 112 km, and no path is shorter than 111 km. -/
example : ∃ d, distBearing 1 1e-12 200 (0, 0) (0, 1) = .ok (d, 90) ∧ 111000 ≤ d ∧ d ≤ 112000 ∧ ∀ c : ℝ → E3, c 0 = ground (0, 0) → c 1 = ground (0, 1) →
    ENNReal.ofReal 111000 ≤ eVariationOn c (Set.Icc 0 1) := by
  obtain ⟨d, hd, h⟩ := c71_equator_ways (k := 1) (tol := 1e-12) (n := 200) (p := (0, 0)) (q := (0, 1)) (by norm_num) le_rfl (by norm_num) rfl rfl (.inl rfl) (by norm_num)
    (by unfold Verif.Wgs.f; norm_num)
  have e : (180 - 90 * 1 : ℝ) = 90 := by norm_num
  rw [e] at hd
  have p1 := pi_gt_d4
  have p2 := pi_lt_d4
  obtain ⟨h1, h2⟩ := abs_le.1 h
  have ha : a = 6378137 := rfl
  unfold radians at h1 h2
  rw [ha] at h1 h2
  norm_num at h1 h2 p1 p2
  have d1 : 111100 ≤ d := by linarith
  have d2 : d ≤ 112000 := by linarith
  refine ⟨d, hd, by linarith, d2, fun c h0 h1 => le_trans (ENNReal.ofReal_le_ofReal ?_) (c71_short one_pos (by norm_num) ?_ ?_ hd c h0 h1).1⟩
  · rw [ha]
    have : d ^ 3 ≤ 112000 ^ 3 := by gcongr
    norm_num at this ⊢
    linarith
  · unfold Lat; constructor <;> norm_num
  · unfold Lat; constructor <;> norm_num

end Verif.Geod
