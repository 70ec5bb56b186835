import Verif.Queued.Starts
import Verif.Subdiv.OneStay

/-! # C43 with the numerical model on the spherical earth: passing a sensor on a level leg -/

namespace Verif.Queued

open Verif.Path Verif.Globe Verif.Subdiv Real
open Verif.Sphere (Tag)

/-- **C43, passing a sensor.** A detectable mover starts on a level leg on which the place nearest to the sensor is in its range. It is in range exactly up to some angle `w` before and
after that place. If this is at least 9261 m of the leg, and the range does not end within 2e-7 of the end of the leg, the sensor is told once: the entry within 46.4 m, or at the start,
and the exit within 46.4 m, unless the leg ends in range; each at its time. Missing: shorter stays (`c72_missed`), legs that are not level, other paths. -/
theorem c43_sampled_pass_partial {k ka v : ℝ} (hk : 0 < k) (hka : 0 < ka) (hv : 0 < v) (place : Nat → Geo) (radius : Nat → ℝ) (t0 : ℝ) (det : Nat → Option Bool) (ops₀ : List (Op ℝ Geo))
    (σ : St ℝ Geo) (hσ : σ = run (subI k ka place radius) (St.init t0 det) ops₀) (m s : Nat) (p f : Geo)
    (hdet : σ.detect m = some true) (hs : s ∈ σ.sensors) (hq : Dead σ m s) (hnew : s ∉ σ.inView m) (hok : (step (subI k ka place radius) σ (.start m v [p, f])).2 = .ok)
    (h0 : 0 < angleOf p f) (hC : angleOf p f ≤ π - 1 / 10 ^ 6) (hlevel : p.alt = f.alt) (hp : 0 < R + p.alt * ka) (hc : 0 < R + (place s).alt * ka)
    (ψ₀ : ℝ) (h1 : 0 ≤ ψ₀) (h2 : ψ₀ ≤ angleOf p f) (hnear : ∀ ψ, dist (travel p f ψ₀) (spot (place s)) ≤ dist (travel p f ψ) (spot (place s)))
    (hin : InRange (radius s * k) (inSpace ka (place s)) (travel p f ψ₀) (p.alt * ka)) (ops : List (Op ℝ Geo)) (hops : ∀ o ∈ ops, Foreign m s o) :
    let ρ := run (subI k ka place radius) (step (subI k ka place radius) σ (.start m v [p, f])).1 ops
    ∃ w, 0 ≤ w ∧ (∀ ψ, |ψ - ψ₀| ≤ π → (InRange (radius s * k) (inSpace ka (place s)) (travel p f ψ) (p.alt * ka) ↔ ψ₀ - w ≤ ψ ∧ ψ ≤ ψ₀ + w)) ∧
      (R * max (ψ₀ - w) 0 + 9261 ≤ R * min (ψ₀ + w) (angleOf p f) → ψ₀ + w + 2 / 10 ^ 7 ≤ angleOf p f ∨ angleOf p f + 2 / 10 ^ 7 ≤ ψ₀ + w →
        ∃ a b new, (ψ₀ - w ≤ 0 → a = 0) ∧ R * max (ψ₀ - w) 0 ≤ v * k * a ∧ v * k * a < R * max (ψ₀ - w) 0 + 46.4 ∧
          (ψ₀ + w < angleOf p f → R * (ψ₀ + w) - 46.4 < v * k * b ∧ v * k * b ≤ R * (ψ₀ + w)) ∧
          told ρ m s = told σ m s ++ new ∧ Stays (σ.now + a) (σ.now + b) (ψ₀ + w < angleOf p f) ρ.now new) := by
  intro ρ
  have hpi := pi_pos
  obtain ⟨w, hw0, hwp, hw⟩ := c72_one_stretch (sin_pos_of_pos_of_lt_pi h0 (by norm_num at hC; linarith)).ne' hp hc ψ₀ hnear hin
  refine ⟨w, hw0, hw, fun hlong hover => ?_⟩
  obtain ⟨a, b, new, g1, g2, g3, g4, g5, g6, -⟩ := c43_sampled_stay_partial hk hka hv place radius t0 det ops₀ σ hσ m s p f hdet hs hq hnew hok hC
    ⟨hlevel, hlong, hover, fun ψ q1 q2 => hw ψ (by norm_num at hC q2; exact abs_le.2 ⟨by linarith, by linarith⟩)⟩ ops hops
  exact ⟨a, b, new, g1, g2, g3, g4, g5, g6⟩

/-- The sensor in the middle of the degree along the equator. -/
example (ops : List (Op ℝ Geo)) (hops : ∀ o ∈ ops, Foreign 1 7 o) :
    let I := subI 1 1 (fun _ => eq (1 / 2)) fun _ => R * (2 * sin (π / 1440))
    ∃ a b new, told (run I (step I (alone I) (.start 1 10 [eq 0, eq 1])).1 ops) 1 7 = told (alone I) 1 7 ++ new ∧
      Stays ((alone I).now + a) ((alone I).now + b) (π / 360 + π / 720 < angleOf (eq 0) (eq 1)) (run I (step I (alone I) (.start 1 10 [eq 0, eq 1])).1 ops).now new := by
  intro I
  have ha : angleOf (eq 0) (eq 1) = (1 - 0) * π / 180 := angle_eq 0 1 (by norm_num) (by norm_num)
  have hp := pi_gt_three
  have hp4 := pi_lt_four
  have hpi := pi_pos
  have hC : angleOf (eq 0) (eq 1) ≤ π - 1 / 10 ^ 6 := by rw [ha]; norm_num; linarith
  have e := alone_eq I
  have he : travel (eq 0) (eq 1) (π / 360) = spot (eq (1 / 2)) := by
    rw [degree_travel, spot_eq]
    congr 2
    · congr 1; ring
    · congr 2; ring
  have hz : (eq 0).alt * 1 = 0 := by simp [eq]
  have hok : (step I (alone I) (.start 1 10 [eq 0, eq 1])).2 = .ok :=
    c43_sampled_starts_partial _ _ (alone I) 1 _ _ (by rw [e]; rfl) (by rw [e]; rfl) hC fun s _ => middle_answers
  obtain ⟨w, hw0, hw, h⟩ := c43_sampled_pass_partial (k := 1) (ka := 1) (v := 10) one_pos one_pos (by norm_num) (fun _ => eq (1 / 2)) (fun _ => R * (2 * sin (π / 1440))) 0 _ [.addSensor 7] (alone I) rfl 1 7
    (eq 0) (eq 1) (by rw [e]; rfl) (by rw [e]; simp) (by rw [e]; intro p hp; simp [St.init] at hp) (by rw [e]; simp [St.init])
    hok (by rw [ha]; linarith) hC rfl (by rw [hz, add_zero]; exact R_pos) (by simpa [eq] using R_pos) (π / 360) (by positivity) (by rw [ha]; linarith)
    (fun ψ => by rw [he, dist_self]; exact dist_nonneg) ((middle.range (π / 360) (by positivity) (by rw [ha]; linarith)).2 ⟨by linarith, by linarith⟩) ops hops
  -- the stretch is known here
  have hwe : w = π / 720 := by
    have m1 := (middle.range (π / 720) (by positivity) (by rw [ha]; linarith)).2 ⟨by linarith, by linarith⟩
    have m2 := (hw (π / 720) (by rw [abs_le]; constructor <;> linarith)).1 m1
    apply le_antisymm
    · by_contra hc
      have hc := not_le.1 hc
      have hmin : 0 < min w (π / 360) - π / 720 := by
        rw [sub_pos, lt_min_iff]; exact ⟨hc, by linarith⟩
      have m3 := (hw (π / 360 - min w (π / 360)) (by
        rw [abs_le]; constructor <;> linarith [min_le_right w (π / 360)])).2 ⟨by linarith [min_le_left w (π / 360)], by linarith⟩
      have m4 := (middle.range (π / 360 - min w (π / 360)) (by linarith [min_le_right w (π / 360)]) (by rw [ha]; linarith)).1 m3
      linarith [m4.1]
    · linarith [m2.1]
  subst hwe
  obtain ⟨a, b, new, -, -, -, -, g1, g2⟩ := h (by
      have := middle.long
      rwa [show π / 360 - π / 720 = π / 720 by ring, show π / 360 + π / 720 = 3 * π / 720 by ring]) (by
      have := middle.over
      rwa [show π / 360 + π / 720 = 3 * π / 720 by ring])
  exact ⟨a, b, new, g1, g2⟩

end Verif.Queued
