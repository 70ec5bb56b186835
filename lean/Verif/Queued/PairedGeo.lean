import Verif.Queued.Paired
import Verif.Queued.Geodetic

/-! # C43: paths accepted with `analytical_intersection` -/

namespace Verif.Queued

open Verif.Path Verif.Globe Verif.Analytic

/-- A fair leg at altitude zero whose ends are not on the boundary: the crossings reported are consistent. -/
theorem geo_leg (k c : ℝ) (hk : 0 < k) (place : Nat → Geo) (radius : Nat → ℝ) (s : Nat) (v : ℝ) (hv : 0 < v) (a b : Geo) (ha : a.alt = 0) (hb : b.alt = 0)
    (hF : Fair k a.ll b.ll (place s).ll (radius s)) (h1 : arcLen k a.ll (place s).ll ≠ radius s) (h2 : arcLen k b.ll (place s).ll ≠ radius s) :
    ∃ r, geoI k c place radius a b v s = some r ∧ Consistent (fun l : Geo => arcLen k l.ll (place s).ll < radius s) a b (r.entries.map (·.kind)) := by
  obtain ⟨res, hres, hcase⟩ := c63_exact_partial k c hk a b (place s) v (radius s) hv ha hb hF (fun h => by rcases h with h | h; exacts [absurd h h1, absurd h h2])
  have hA := hF.at_iff hk
  have hS := hF.at_start hk
  have hE := hF.at_finish hk
  have hm := hF.moves
  unfold geoI
  rw [hres]
  refine ⟨_, rfl, ?_⟩
  rcases hcase with ⟨e, hout⟩ | ⟨k1, X1, t1, k2, X2, t2, e, -, g0, g12, gT, hX1, hX2, -, -, hwin, hk1, hk2⟩
  · exact .inl ⟨by simp [e], not_lt.2 (hout _ _ hS), not_lt.2 (hout _ _ hE)⟩
  · refine .inr ⟨tagOf k1, tagOf k2, by simp [e], ?_, ?_⟩
    · rcases hk1 with ⟨rfl, -, hi⟩ | ⟨rfl, hon⟩
      · exact .inl ⟨hi, rfl⟩
      · refine .inr ⟨fun hi => h1 ?_, rfl⟩
        have h := ((hwin 0 _ (by rw [mul_zero]; exact hS)).1 hi.le).1
        have ht : t1 = 0 := le_antisymm h g0
        rw [ht, mul_zero] at hX1
        have : Globe.place X1.ll = Globe.place a.ll := ((hA _ _).1 hX1).2.trans ((hA _ _).1 hS).2.symm
        rw [arcLen, ← this]; exact hon
    · rcases hk2 with ⟨rfl, -, hi⟩ | ⟨rfl, hon⟩
      · exact .inl ⟨hi, rfl⟩
      · refine .inr ⟨fun hi => h2 ?_, rfl⟩
        have hvT : v * (arcLen k a.ll b.ll / v) = arcLen k a.ll b.ll := by field_simp
        have h := ((hwin (arcLen k a.ll b.ll / v) _ (by rw [hvT]; exact hE)).1 hi.le).2
        have ht : t2 = arcLen k a.ll b.ll / v := le_antisymm gT h
        rw [ht, hvT] at hX2
        have : Globe.place X2.ll = Globe.place b.ll := ((hA _ _).1 hX2).2.trans ((hA _ _).1 hE).2.symm
        rw [arcLen, ← this]; exact hon

/-- **C43, paths accepted with `analytical_intersection`.** A detectable mover that is not moving starts without an error along every path at altitude
zero whose legs are fair for all sensors and neither start nor end on the boundary of a range. Missing: other legs (`c63_raises`, `c63_altitude`). -/
theorem c43_analytic_accepts_partial (k c : ℝ) (hk : 0 < k) (place : Nat → Geo) (radius : Nat → ℝ) (σ : St ℝ Geo) (m : Nat) (v : ℝ) (hv : 0 < v)
    (ws : List Geo) (hd : σ.detect m = some true) (hm : σ.movers.has m = false) (hlow : ∀ l ∈ ws, l.alt = 0)
    (hb : ∀ s ∈ σ.sensors, ∀ l ∈ ws, arcLen k l.ll (place s).ll ≠ radius s)
    (hF : ∀ s ∈ σ.sensors, ∀ pre a b post, ws = pre ++ a :: b :: post → Fair k a.ll b.ll (place s).ll (radius s)) :
    (step (geoI k c place radius) σ (.start m v ws)).2 = .ok := by
  have key : ∀ s ∈ σ.sensors, ∀ pre a b post, ws = pre ++ a :: b :: post → ∃ r, geoI k c place radius a b v s = some r ∧
      Consistent (fun l : Geo => arcLen k l.ll (place s).ll < radius s) a b (r.entries.map (·.kind)) := fun s hs pre a b post e =>
    geo_leg k c hk place radius s v hv a b (hlow a (by rw [e]; simp)) (hlow b (by rw [e]; simp)) (hF s hs pre a b post e)
      (hb s hs a (by rw [e]; simp)) (hb s hs b (by rw [e]; simp))
  refine (c43_consistent (geoI k c place radius) σ m v ws hd hm (fun s l => arcLen k l.ll (place s).ll < radius s) ?_).2 ?_
  · intro s hs pre a b post e r hr
    obtain ⟨r', hr', hc⟩ := key s hs pre a b post e
    rw [hr, Option.some.injEq] at hr'
    rwa [hr']
  · intro s hs pre a b post e h
    obtain ⟨r', hr', -⟩ := key s hs pre a b post e
    rw [h] at hr'; cases hr'

/-- The same for a sensor added while movers are on their way. -/
theorem c43_analytic_accepts_sensor_partial (k c : ℝ) (hk : 0 < k) (place : Nat → Geo) (radius : Nat → ℝ) (σ : St ℝ Geo) (s : Nat)
    (hw : ∀ m t, σ.movers.get? m = some t → 0 < t.speed ∧ (∀ l ∈ t.waypoints, l.alt = 0 ∧ arcLen k l.ll (place s).ll ≠ radius s) ∧
      ∀ pre a b post, t.waypoints = pre ++ a :: b :: post → Fair k a.ll b.ll (place s).ll (radius s)) :
    (step (geoI k c place radius) σ (.addSensor s)).2 = .ok := by
  refine (c43_accepted_sensor (geoI k c place radius) σ s).1.2 fun m t ht => ?_
  obtain ⟨hv, hl, hF⟩ := hw m t ht
  have key := fun pre a b post (e : t.waypoints = pre ++ a :: b :: post) =>
    geo_leg k c hk place radius s t.speed hv a b (hl a (by rw [e]; simp)).1 (hl b (by rw [e]; simp)).1 (hF pre a b post e)
      (hl a (by rw [e]; simp)).2 (hl b (by rw [e]; simp)).2
  refine (consistent_path (geoI k c place radius) t.speed s (fun l => arcLen k l.ll (place s).ll < radius s) t.waypoints ?_).2 ?_
  · intro pre a b post e r hr
    obtain ⟨r', hr', hc⟩ := key pre a b post e
    rw [hr, Option.some.injEq] at hr'
    rwa [hr']
  · intro pre a b post e h
    obtain ⟨r', hr', -⟩ := key pre a b post e
    rw [h] at hr'; cases hr'

/-- Non-vacuity: along the equator from 0 to 90 degrees past a sensor at 45 that sees 10 degrees far. -/
example : (step eastI eastS (.start 1 R [east0, east90])).2 = .ok ∧
    (step eastI (step eastI (St.init 0 fun _ => some true) (.start 1 R [east0, east90])).1 (.addSensor 7)).2 = .ok := by
  have e : eastS = { (St.init 0 fun _ => some true : St ℝ Geo) with sensors := [7] } := by simp [eastS, run, step, addSensor, find, St.init, Dict.keys]
  have hl : ∀ l ∈ [east0, east90], l.alt = 0 ∧ arcLen 1 l.ll east45.ll ≠ R * (10 * Real.pi / 180) := by
    intro l hl
    simp only [List.mem_cons, List.not_mem_nil, or_false] at hl
    rcases hl with rfl | rfl
    · exact ⟨east_leg.low.1, east_leg.start⟩
    · exact ⟨east_leg.low.2, east_leg.finish⟩
  constructor
  · exact c43_analytic_accepts_partial 1 1 one_pos _ _ eastS 1 R R_pos _ (by rw [e]; rfl) (by rw [e]; rfl) (fun l h => (hl l h).1) (fun _ _ l h => (hl l h).2)
      fun _ _ pre a b post h => (east_legs pre a b post h).fair
  · refine c43_analytic_accepts_sensor_partial 1 1 one_pos _ _ _ 7 fun m t ht => ?_
    have : t = ⟨R, [east0, east90], 0⟩ := by
      simp [step, startMover, St.init, find, Dict.has, Dict.set, Dict.get?] at ht
      exact ht.2.symm
    subst this
    exact ⟨R_pos, hl, fun pre a b post h => (east_legs pre a b post h).fair⟩

end Verif.Queued
