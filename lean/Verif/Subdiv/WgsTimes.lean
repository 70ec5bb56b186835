import Verif.Subdiv.WgsEquator
import Verif.Geod.Reach

/-! # C82: the mover is at the locations reported at the times reported -/

namespace Verif.Subdiv.Wgs84

open Verif.Path Verif.Geod Verif.Crossing Real
open Verif.Globe (LL E3 radians place vec)
open Verif.Wgs (a b f a_pos b_pos f_pos lla2ecef)

theorem times_num {s t D : ℝ} (hs0 : 0 ≤ s) (hs1 : s ≤ 20037511) (ht0 : 0 ≤ t) (htD : t ≤ D) (hD : D ≤ 1e6)
    (h1 : s - s ^ 3 / 9.6e14 ≤ t + 50.001) (h2 : t - t ^ 3 / 9.6e14 ≤ s + 50.001) : |s - t| ≤ 50.9 + D ^ 3 / 9.4e14 := by
  have hD0 : 0 ≤ D := ht0.trans htD
  have c1 : t ^ 3 ≤ D ^ 3 := by gcongr
  have cD : 0 ≤ D ^ 3 := by positivity
  have step : ∀ q : ℝ, 0 ≤ q → s ≤ q → s * (1 - q ^ 2 / 9.6e14) ≤ t + 50.001 := fun q hq hsq => by
    have h3 : s ^ 2 ≤ q ^ 2 := by gcongr
    have h4 := mul_le_mul_of_nonneg_left h3 hs0
    have e : s ^ 3 = s * s ^ 2 := by ring
    rw [e] at h1
    norm_num at h1 ⊢
    nlinarith
  have s1 := step 20037511 (by norm_num) hs1
  have s2 : s ≤ 1725000 := by norm_num at s1 hD; linarith
  have s3 := step 1725000 (by norm_num) s2
  have s4 : s ≤ 1.00312 * (D + 50.001) := by norm_num at s3 hD ⊢; linarith
  have s5 : s ^ 3 ≤ (1.00312 * (D + 50.001)) ^ 3 := by gcongr
  have s6 : (1.00312 * (D + 50.001)) ^ 3 ≤ 1.0094 * D ^ 3 + 1.6e14 := by
    have q1 : D ^ 2 ≤ 1e6 ^ 2 := by gcongr
    have e : (1.00312 * (D + 50.001)) ^ 3 = 1.00312 ^ 3 * (D ^ 3 + 3 * 50.001 * D ^ 2 + 3 * 50.001 ^ 2 * D + 50.001 ^ 3) := by ring
    rw [e]
    norm_num at q1 hD ⊢
    linarith
  rw [abs_le]
  norm_num at *
  constructor <;> linarith

/-- **C82, the times are right.** On legs of at most 1000 km everything that is reported is right, and at the time reported the mover, on the line of the
leg, is within 101 m of the location reported, and the cube of the length of the leg over 9.4e14 m (1.1 m for 100 km). Missing: longer legs. -/
theorem c82_times_partial {k ka v r : ℝ} {s f c : Geo} {l : List Hit} {pt : ℝ} (hk : 0 < k) (hka : ka ≠ 0) (hv : 0 < v) (hs : Lat (deg s)) (hf : Lat (deg f))
    (h : subdivide k ka s f v c r = .ok (.hits l pt)) (hlong : pt * (v * k) ≤ 1e6) :
    l ≠ [] ∧ ∃ γ w D, Leg (deg s) (deg f) γ w D ∧ pt * (v * k) = D ∧
      ∀ x ∈ l, Right k ka v r s f c γ w D pt x ∧ Near γ w (x.time * (v * k)) (101 + D ^ 3 / 9.4e14) (ground (deg x.loc)) := by
  obtain ⟨hne, γ, w, D, hleg, hpt, hall⟩ := c82_hits_partial hk hka hv hs hf h
  refine ⟨hne, γ, w, D, hleg, hpt, fun x hx => ⟨hall x hx, ?_⟩⟩
  obtain ⟨t, ht0, htD, hnear⟩ := (hall x hx).near
  obtain ⟨u, q, y, hl, hq0, hq1, hq, hy⟩ := (hall x hx).far
  obtain ⟨r1, r2⟩ := hl.reach hq0
  obtain ⟨m, hm, hd⟩ := hnear
  obtain ⟨T, G⟩ := hleg.line.geodesic
  have hlead : Leads (ground (deg s)) (T 0) t (γ m) := ⟨γ, T, w, G, hleg.start, rfl, m, hm, rfl⟩
  obtain ⟨r3, r4⟩ := hlead.reach ht0
  have t1 := dist_triangle4 y (ground (deg x.loc)) (γ m) (ground (deg s))
  have t2 := dist_triangle4 (γ m) (ground (deg x.loc)) y (ground (deg s))
  rw [dist_comm (ground (deg x.loc)) (γ m)] at t1
  rw [dist_comm (ground (deg x.loc)) y] at t2
  have hq2 : q ≤ 20037511 := by
    have := pi_lt_d6
    have ha : a = 6378137 := rfl
    rw [ha] at hq1
    norm_num at this ⊢
    linarith
  rw [hpt] at hlong
  have key := times_num hq0 hq2 ht0 htD hlong (by norm_num at *; linarith) (by norm_num at *; linarith)
  have hclose : |x.time * (v * k) - t| ≤ 51 + D ^ 3 / 9.4e14 := by
    have e : x.time * (v * k) - t = (x.time * (v * k) - q) + (q - t) := by ring
    rw [e]
    refine (abs_add_le _ _).trans ?_
    norm_num at *
    linarith
  refine (Near.shift hleg.line ⟨m, hm, hd⟩ hclose).mono ?_
  norm_num
  linarith

/-- A degree of the equator, out of the range of a sensor at its start: the EXIT that is reported is where the mover is, to 103 m. -/
example : ∃ l pt γ w D x, subdivide 1 1 ⟨0, 0, 0, false⟩ ⟨0, 1, 0, false⟩ 10 ⟨0, 0, 0, false⟩ 30000 = .ok (.hits l pt) ∧
    Leg (0, 0) (0, 1) γ w D ∧ x ∈ l ∧ x.kind = .exit ∧ Near γ w (x.time * 10) 103 (ground (deg x.loc)) := by
  have near : InRange ((30000 : ℝ) * 1) (toTuple 1 ⟨0, 0, 0, false⟩) (toTuple 1 ⟨0, 0, 0, false⟩) := by
    unfold InRange; rw [dist_self]; norm_num
  have far : ¬ InRange ((30000 : ℝ) * 1) (toTuple 1 ⟨0, 0, 0, false⟩) (toTuple 1 ⟨0, 1, 0, false⟩) := by
    unfold InRange
    rw [not_le]
    have := degree_apart
    simpa [toTuple, Geo.toDegrees] using this
  obtain ⟨ans, h1, h2, h3, -⟩ := c82_equator (k := 1) (ka := 1) (v := 10) (r := 30000) (w := 1) (s := ⟨0, 0, 0, false⟩) (f := ⟨0, 1, 0, false⟩) (c := ⟨0, 0, 0, false⟩)
    one_pos one_ne_zero (by norm_num) (by norm_num) rfl rfl rfl (Or.inl rfl) degree_long (by unfold Wgs.f deg Geo.toDegrees; norm_num)
  have hk := h3 near far
  cases ans with
  | bad => cases hk
  | hits l pt =>
    obtain ⟨hpt, -⟩ := h2 l pt rfl
    have hk' : l.map (·.kind) = [.startInside, .exit] := hk
    obtain ⟨x, hx1, hx2⟩ := List.mem_map.1 (show Crossing.Kind.exit ∈ l.map (·.kind) by rw [hk']; simp)
    have hpt' : pt * (10 * 1) ≤ 112000 := by
      have h4 := (abs_le.1 hpt).2
      have ha : a = 6378137 := rfl
      have := pi_lt_d4
      unfold radians deg Geo.toDegrees at h4
      rw [ha] at h4
      norm_num at *
      linarith
    have hl : ∀ y : ℝ, Lat (deg ⟨0, y, 0, false⟩) := fun y => by unfold Lat deg Geo.toDegrees; constructor <;> norm_num
    obtain ⟨-, γ, w, D, hleg, hD, hall⟩ := c82_times_partial one_pos one_ne_zero (by norm_num) (hl 0) (hl 1) h1 (by norm_num at *; linarith)
    refine ⟨l, pt, γ, w, D, x, h1, ?_, hx1, hx2, ?_⟩
    · simpa [deg, Geo.toDegrees] using hleg
    · have h5 := (hall x hx1).2
      rw [mul_one] at h5
      refine h5.mono ?_
      rw [hD] at hpt'
      have h6 : D ^ 3 ≤ 112000 ^ 3 := by have := hleg.length0; gcongr
      norm_num at *
      linarith

end Verif.Subdiv.Wgs84
