import Verif.Subdiv.Spec

/-! # Sampling on a great circle -/

namespace Verif.Subdiv

open Verif.Globe Verif.Path Real InnerProductGeometry

theorem toTuple_place (ka : ℝ) (g : Geo) : place (toTuple ka g).1 = spot g := rfl

theorem toDegrees_alt (g : Geo) : g.toDegrees.alt = g.alt := by unfold Geo.toDegrees; split <;> rfl

theorem toTuple_alt (ka : ℝ) (g : Geo) : (toTuple ka g).2 = g.alt * ka := by unfold toTuple; rw [toDegrees_alt]

theorem globe_nonempty (c : Lla) (r : ℝ) (a b : Lla) (n : ℕ) : (globe c r).samples a b n ≠ [] := by
  unfold globe
  simp only
  cases h : ecefAndGeoLinspace a.1 b.1 a.2 b.2 n with
  | error e => simp
  | ok x =>
    cases hg : geoLinspace a.1 b.1 n with
    | error e => unfold ecefAndGeoLinspace at h; rw [hg] at h; cases h
    | ok l =>
      obtain ⟨xs, lla, h1, -, h2, -⟩ := c61_ecef_and_geo a.1 b.1 a.2 b.2 n l hg
      rw [h] at h1
      cases h1
      intro h0
      simp only at h0
      rw [h0] at h2
      simp at h2

theorem euclid_dist (x y : Pos) : euclid x y = dist (vec x) (vec y) := by
  rw [EuclideanSpace.dist_eq, Fin.sum_univ_three]
  unfold euclid vec
  simp [dist_eq_norm, norm_eq_abs, sq_abs]

theorem globe_inside (c : Lla) (r : ℝ) (x : Lla) : (globe c r).inside x = true ↔ InRange r ((R + c.2) • place c.1) (place x.1) x.2 := by
  unfold globe InRange
  simp only [decide_eq_true_eq]
  rw [euclid_dist, c61_lla2ecef, c61_lla2ecef]

theorem globe_outside (c : Lla) (r : ℝ) (x : Lla) : (globe c r).inside x = false ↔ ¬ InRange r ((R + c.2) • place c.1) (place x.1) x.2 := by
  rw [← globe_inside]; simp

theorem arc_arc (x u : E3) (s t : ℝ) : arc (arc x u s) (arc x u (s + π / 2)) t = arc x u (s + t) := by
  unfold arc
  rw [cos_add_pi_div_two, sin_add_pi_div_two, cos_add, sin_add]
  module

/-- Samples between two points of a great circle. -/
theorem samples_on {x u : E3} (hx : inner ℝ x x = 1) (hu : inner ℝ u u = 1) (hxu : inner ℝ x u = 0) {c : Lla} {r : ℝ} {a b : Lla} {θa θb : ℝ} {n : ℕ}
    (ha : place a.1 = arc x u θa) (hb : place b.1 = arc x u θb) (h0 : θa < θb) (h1 : θb - θa ≤ π - 1 / 10 ^ 7) (hn : 2 ≤ n)
    (hr : (globe c r).raises a b n = false) :
    ∃ t, |t - (θb - θa)| ≤ 4 / 10 ^ 8 ∧ ((globe c r).samples a b n).length = n + 1 ∧
      ∀ (i : ℕ) y, ((globe c r).samples a b n)[i]? = some y → place y.1 = arc x u (θa + t * (i / n)) ∧ y.2 = a.2 + (b.2 - a.2) * i / n := by
  have hR := R_pos
  have h7 : (0 : ℝ) < 1 / 10 ^ 7 := by norm_num
  unfold globe at hr ⊢
  simp only at hr ⊢
  cases h : ecefAndGeoLinspace a.1 b.1 a.2 b.2 n with
  | error e => rw [h] at hr; simp at hr
  | ok z =>
    cases hg : geoLinspace a.1 b.1 n with
    | error e => unfold ecefAndGeoLinspace at h; rw [hg] at h; cases h
    | ok l =>
      obtain ⟨xs, lla, k1, k2, k3, k4⟩ := c61_ecef_and_geo a.1 b.1 a.2 b.2 n l hg
      rw [h] at k1
      cases k1
      have hc : central a.1 b.1 = θb - θa := by
        unfold central; rw [ha, hb]
        exact arc_angle hx hu hxu θa θb h0.le (by linarith)
      have hd : distance 1 a.1 b.1 = R * (θb - θa) := by rw [distance_eq, hc, div_one]
      have hsum : (place a.1) 0 + (place b.1) 0 ≠ 0 := fun h => by
        obtain ⟨e, he⟩ := c61_linspace_cancels a.1 b.1 n h
        rw [he] at hg; cases hg
      obtain ⟨t, l', g1, g2, g3, g4, -⟩ := c61_linspace_partial a.1 b.1 n hn (by rw [hd]; exact mul_pos hR (by linarith)) (by rw [hd]; nlinarith) hsum
      rw [hg] at g1
      cases g1
      rw [hd, mul_div_cancel_left₀ _ hR.ne'] at g3
      have hhead : heading a.1 (bearing a.1 b.1) = arc x u (θa + π / 2) := by
        have htar := target_eq a.1 b.1
        rw [hc, hb, ha] at htar
        have hs : sin (θb - θa) ≠ 0 := (sin_pos_of_pos_of_lt_pi (by linarith) (by linarith)).ne'
        have e := arc_arc x u θa (θb - θa)
        rw [add_sub_cancel, htar] at e
        unfold arc at e
        have e' := add_left_cancel e
        exact ((smul_right_injective E3 hs) e').symm
      refine ⟨t, g3, k3, fun i y hy => ?_⟩
      have hi : i < xs.length := by
        rw [k2, ← k3]; exact (List.getElem?_eq_some_iff.1 hy).1
      obtain ⟨m1, m2, -⟩ := k4 i xs[i] y (List.getElem?_eq_getElem hi) hy
      refine ⟨?_, m2⟩
      rw [g4 i y.1 m1, hhead, ha, arc_arc]

theorem nb_index {α : Type} {l : List α} {x y : α} (h : Crossing.Neighbours l x y) : ∃ i, l[i]? = some x ∧ l[i + 1]? = some y := by
  obtain ⟨p, q, rfl⟩ := h
  exact ⟨p.length, by simp, by simp⟩

/-- Neighbouring samples: both on the circle, in order, closer than one step and `4·10⁻⁸` together, with altitudes between those of the ends. -/
theorem nb_on {x u : E3} (hx : inner ℝ x x = 1) (hu : inner ℝ u u = 1) (hxu : inner ℝ x u = 0) {c : Lla} {r : ℝ} {a b y z : Lla} {θa θb : ℝ} {n : ℕ}
    (ha : place a.1 = arc x u θa) (hb : place b.1 = arc x u θb) (h0 : 1 / 10 ^ 6 ≤ θb - θa) (h1 : θb - θa ≤ π - 1 / 10 ^ 7) (hn : 2 ≤ n)
    (hr : (globe c r).raises a b n = false) (h : Crossing.Neighbours ((globe c r).samples a b n) y z) :
    ∃ θy θz, place y.1 = arc x u θy ∧ place z.1 = arc x u θz ∧ θa ≤ θy ∧ θy < θz ∧ θz ≤ θb + 4 / 10 ^ 8 ∧ θz - θy ≤ (θb - θa) / n + 4 / 10 ^ 8 / n ∧
      y.2 ∈ Set.uIcc a.2 b.2 ∧ z.2 ∈ Set.uIcc a.2 b.2 := by
  have h0' : (0 : ℝ) < 1 / 10 ^ 6 := by norm_num
  obtain ⟨t, ht, hlen, hs⟩ := samples_on hx hu hxu ha hb (by linarith) h1 hn hr
  obtain ⟨i, hy, hz⟩ := nb_index h
  have hi : i + 1 < n + 1 := by rw [← hlen]; exact (List.getElem?_eq_some_iff.1 hz).1
  obtain ⟨py, ay⟩ := hs i y hy
  obtain ⟨pz, az⟩ := hs (i + 1) z hz
  have hn' : (0 : ℝ) < n := by exact_mod_cast (by omega : 0 < n)
  have hi' : ((i : ℝ) + 1) ≤ n := by exact_mod_cast (by omega : i + 1 ≤ n)
  have hi0 : (0 : ℝ) ≤ i := by positivity
  have ht' := abs_le.1 ht
  have htp : 0 < t := by norm_num at ht' h0 ⊢; linarith
  have frac : ∀ w : ℝ, 0 ≤ w → w ≤ n → ∀ a b : ℝ, a + (b - a) * w / n ∈ Set.uIcc a b := by
    intro w w0 w1 a b
    have f0 : 0 ≤ w / n := by positivity
    have f1 : w / n ≤ 1 := (div_le_one hn').2 w1
    rw [mul_div_assoc]
    rcases le_total a b with hab | hab
    · rw [Set.uIcc_of_le hab]; constructor <;> nlinarith
    · rw [Set.uIcc_of_ge hab]; constructor <;> nlinarith
  refine ⟨_, _, py, pz, ?_, ?_, ?_, ?_, ?_, ?_⟩
  · have : 0 ≤ t * (i / n) := by positivity
    linarith
  · push_cast
    have : (i : ℝ) / n < (i + 1) / n := by gcongr; linarith
    nlinarith
  · push_cast
    have : ((i : ℝ) + 1) / n ≤ 1 := (div_le_one hn').2 hi'
    nlinarith
  · push_cast
    have e : θa + t * ((i + 1) / n) - (θa + t * (i / n)) = t / n := by field_simp; ring
    rw [e, ← add_div]
    gcongr
    linarith
  · rw [ay]; exact frac i hi0 (by linarith) _ _
  · rw [az]; push_cast; exact frac (i + 1) (by linarith) hi' _ _

/-- The length of a leg on the circle. -/
theorem dist_on {x u : E3} (hx : inner ℝ x x = 1) (hu : inner ℝ u u = 1) (hxu : inner ℝ x u = 0) {c : Lla} {r : ℝ} {a b : Lla} {θa θb : ℝ}
    (ha : place a.1 = arc x u θa) (hb : place b.1 = arc x u θb) (h0 : θa ≤ θb) (h1 : θb - θa ≤ π) : (globe c r).dist a b = R * (θb - θa) := by
  show distance 1 a.1 b.1 = _
  rw [distance_eq, div_one]
  unfold central
  rw [ha, hb, arc_angle hx hu hxu θa θb h0 h1]

end Verif.Subdiv
