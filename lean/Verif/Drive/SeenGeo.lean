import Verif.Drive.Seen
import Verif.Queued.Geodetic
import Verif.Globe.Motion

/-! # C75: sensors see actors where they are, on the spherical earth -/

namespace Verif.Drive

open Verif.Path (At pathLen geodetic Geo)
open Verif.Globe (arcLen OffPole spherical LL)
open Verif.Analytic (Fair)
open Verif.Queued (told Seen geoI LegFair Passes InReach Dead arc_metric)

/-- Points at a path length are equally far from everywhere, when the legs are fair. -/
theorem arc_unique (k : ℝ) (hk : 0 < k) (c : LL) (r : ℝ) (p : LL) (ws : List LL) (hF : ∀ pre a b post, p :: ws = pre ++ a :: b :: post → Fair k a b c r) (s : ℝ) (X Y : LL)
    (hX : At (arcLen k) p ws s X) (hY : At (arcLen k) p ws s Y) : arcLen k X c = arcLen k Y c := by
  have hM := arc_metric k hk
  induction ws generalizing p s with
  | nil => obtain ⟨pre, w, post, a, h0, -⟩ := hX; simp at h0
  | cons w ws ih =>
    have hf := hF [] p w ws rfl
    have hone : ∀ {X Y}, At (arcLen k) p [w] s X → At (arcLen k) p [w] s Y → arcLen k X c = arcLen k Y c := by
      intro X Y h1 h2
      rw [hf.at_iff hk] at h1 h2
      have : arcLen k X Y = 0 := by rw [← Globe.spherical_dist]; exact ((Globe.c60_metric k hk).2.2.1 X Y).2 (by rw [h1.2, h2.2])
      exact (hM.zero this c).2
    rcases le_total s (arcLen k p w) with h | h
    · rw [hM.at_cons _ _ _ _ _ h] at hX hY
      exact hone hX hY
    · cases ws with
      | nil => exact hone hX hY
      | cons w' ws =>
        rw [hM.at_rest _ _ _ (by simp) _ _ h] at hX hY
        exact ih w (fun pre a b post he => hF (p :: pre) a b post (by rw [he]; rfl)) _ hX hY

/-- **C75, sensors see actors where they are, on the spherical earth (the part that holds).** On a stage with the spherical earth and the analytical
intersection model, a detectable actor with a geodetic location starts a motion from where it is. Under the conditions of `c43_analytic_partial`
and `c18_spherical_partial`, whatever else happens, including rehearsals, reading the location of the actor at some time on its way gives a
place which is in the range of a sensor over ground exactly when, according to what the sensor is told up to any later time, the actor was
in range at that time. Missing: the cases excluded by these conditions. -/
theorem c75_seen_spherical_partial (k u : ℝ) (hk : 0 < k) (place : Nat → Geo) (radius : Nat → ℝ) (states : List Nat) (c : Cfg Geo)
    (hcfg : c = ⟨geodetic (spherical k), geoI k u place radius, states⟩)
    (t0 : ℝ) (n0 : Nat) (det : Nat → Option Bool) (val : Nat → Nat → Geo) (ops₀ : List (Op Geo)) (w : World Geo) (hw : w = run c (init t0 n0 det val) ops₀)
    (a n s : Nat) (ha : a < n0) (v : ℝ) (hv : 0 < v) (ws : List Geo) (hws : ws ≠ []) (hl : (w.loc a n).locked = false)
    (hdet : w.mgr.detect a = some true) (hs : s ∈ w.mgr.sensors) (hq : Dead w.mgr a s) (hok : (step c w (.activate a n v ws)).2 = .path .done)
    (hdeg : ∀ l ∈ (w.loc a n).value :: ws, l.rad = false ∧ OffPole l.ll)
    (hleg : ∀ pre x y post, (w.loc a n).value :: ws = pre ++ x :: y :: post → LegFair k x y (place s).ll (radius s))
    (hmiss : ∀ pre x y post, (w.loc a n).value :: ws = pre ++ x :: y :: post → Passes k x y (place s).ll (radius s) →
      ∀ t X, At (arcLen k) y.ll (post.map Geo.ll) t X → radius s < arcLen k X (place s).ll)
    (hwas : s ∈ w.mgr.inView a → arcLen k (w.loc a n).value.ll (place s).ll ≤ radius s)
    (ops₁ ops₂ : List (Op Geo)) (hops : ∀ o ∈ ops₁ ++ ops₂, o.Foreign a s) (w₁ w₂ : World Geo)
    (hw₁ : w₁ = run c (step c w (.activate a n v ws)).1 ops₁) (hw₂ : w₂ = run c w₁ ops₂) (hlt : w₁.mgr.now < w₂.mgr.now)
    (hpos : w.mgr.now < w₁.mgr.now) (hend : v * (w₁.mgr.now - w.mgr.now) ≤ pathLen (arcLen k) (w.loc a n).value.ll (ws.map Geo.ll))
    (hclear : ∀ pre post, ws = pre ++ post → pre ≠ [] →
      ¬ (pathLen (arcLen k) (w.loc a n).value.ll (pre.map Geo.ll) / v < w₁.mgr.now - w.mgr.now ∧
        w₁.mgr.now - w.mgr.now ≤ pathLen (arcLen k) (w.loc a n).value.ll (pre.map Geo.ll) / v + 1 / 10 ^ 4)) :
    ∃ X new, (step c w₁ (.read a n)).2 = .path (.loc X) ∧ told w₂.mgr a s = told w.mgr a s ++ new ∧
      (arcLen k X.ll (place s).ll ≤ radius s ↔ Seen (s ∈ w.mgr.inView a) new w₁.mgr.now) := by
  have hK : c.kind = geodetic (spherical k) := by rw [hcfg]
  have hI : c.inter = geoI k u place radius := by rw [hcfg]
  obtain ⟨μ, d, qs₀, qs, os, hμ, hd, hda, hst, hfor, htold, hnow₂, hdur, hnow₀, hnow₁, hread⟩ :=
    project c t0 n0 det val ops₀ w hw a n s ha v ws hok ops₁ ops₂ hops w₁ w₂ hw₁ hw₂
  have n0' : w.mgr.now = μ.now := by rw [hd]; rfl
  have hvw : s ∈ w.mgr.inView a ↔ s ∈ μ.inView a := by rw [hd]; rfl
  have ht0 : told w.mgr a s = told μ a s := by rw [hd]; rfl
  rw [hI] at hμ hst htold hnow₂
  rw [hK] at hnow₁ hread
  obtain ⟨X, hX, hat, -⟩ := Globe.c18_spherical_partial k hk (w.loc a n) hl v hv ws (hdeg _ (by simp)).1 (fun l h => (hdeg l (by simp [h])).1) (hdeg _ (by simp)).2
    (fun l h => (hdeg l (by simp [h])).2) os hdur (w₁.mgr.now - w.mgr.now) (by rw [hnow₁, hnow₀]) (by linarith) hend hclear
  rw [n0'] at hpos hend hclear hat
  rw [hvw] at hwas
  have hserved := Queued.c43_analytic_partial k u hk place radius t0 det qs₀ μ hμ a s v hv (w.loc a n).value ws hws
    (by rw [← hda]; rw [hd] at hdet; exact hdet) (by rw [hd] at hs; exact hs) (by rw [hd] at hq; exact hq) hst hleg hmiss _ rfl hwas qs hfor
  obtain ⟨new, hnew, hright⟩ := hserved.told
  refine ⟨X, new, ?_, ?_, ?_⟩
  · rw [hread, hX]
  · rw [htold, ht0]; exact hnew
  · have hin := hright.complete w₁.mgr.now (by linarith) (by rw [← hnow₂]; exact hlt) (by
      have : w₁.mgr.now - μ.now ≤ pathLen (arcLen k) (w.loc a n).value.ll (ws.map Geo.ll) / v := by
        rw [le_div_iff₀ hv]; linarith
      linarith)
    rw [hvw]
    simp only [decide_eq_true_eq] at hin
    rw [← hin]
    constructor
    · intro h; exact ⟨_, hat, h⟩
    · rintro ⟨Y, hY, h⟩
      have : arcLen k X.ll (place s).ll = arcLen k Y (place s).ll := by
        refine arc_unique k hk _ (radius s) _ _ ?_ _ _ _ hat hY
        intro pre x y post he
        rw [← List.map_cons, List.map_eq_append_iff] at he
        obtain ⟨l1, l2, h1, -, h3⟩ := he
        obtain ⟨x', l3, h4, rfl, h5⟩ := List.map_eq_cons_iff.1 h3
        obtain ⟨y', l4, h6, rfl, -⟩ := List.map_eq_cons_iff.1 h5
        exact (hleg l1 x' y' l4 (by rw [h1, h4, h6])).fair
      rw [this]; exact h

/-! An actor to which the theorem applies: it goes east along the equator from (0, 0) to (0, 90), and the sensor at (0, 45) sees 10 degrees far. -/

open Verif.Queued (eastI east_leg east_legs east_miss east_ll)
open Verif.Analytic (east0 east90 east45 east_len)
open Verif.Globe (R R_pos)

noncomputable def eastC : Cfg Geo := ⟨geodetic (spherical 1), eastI, [0]⟩

noncomputable def eastW : World Geo := init 0 1 (fun _ => some true) (fun _ _ => east0)

/-- With the sensor. -/
noncomputable def eastS : World Geo := { eastW with mgr := { eastW.mgr with sensors := [7] } }

theorem east_sensor : (step eastC eastW (.addSensor 7)).1 = eastS := by
  simp [step, Op.actor, act, Queued.addSensor, eastW, init, Queued.St.init, Dict.keys, Queued.find, eastS]

theorem east_inter : ∃ t₁ t₂ : ℝ, 0 < t₁ ∧ t₁ < t₂ ∧ t₂ ≤ Real.pi / 2 ∧ Queued.processPair eastI ⟨R, [east0, east90], 0⟩ 7 = some [(⟨.enter, t₁⟩, ⟨.exit, t₂⟩)] := by
  have hR := R_pos
  have hpi := Real.pi_pos
  obtain ⟨e0, e1, e2⟩ := east_ll
  have hl : arcLen 1 east0.ll east90.ll / R = Real.pi / 2 := by
    rw [e0, e1, east_len 0 90 (by norm_num) (by norm_num)]; field_simp; norm_num
  have f0 : ¬ arcLen 1 east0.ll east45.ll ≤ R * (10 * Real.pi / 180) := by
    rw [e0, e2, east_len 0 45 (by norm_num) (by norm_num)]; intro h; nlinarith [mul_pos hR hpi]
  have f1 : ¬ arcLen 1 east90.ll east45.ll ≤ R * (10 * Real.pi / 180) := by
    rw [e1, e2, (arc_metric 1 one_pos).comm, east_len 45 90 (by norm_num) (by norm_num)]; intro h; nlinarith [mul_pos hR hpi]
  obtain ⟨res, hres, h⟩ := Queued.leg_exact 1 1 one_pos (fun _ => east45) (fun _ => R * (10 * Real.pi / 180)) 7 R hR east0 east90 east_leg
  rcases h with ⟨-, h⟩ | ⟨k₁, k₂, t₁, t₂, he, -, h0, h12, h2, hin, hk1, hk2⟩
  · exfalso
    have hat := Analytic.east_at 45 (by norm_num) (by norm_num)
    rw [← e0, ← e1, ← e2] at hat
    have := h _ _ hat
    rw [(arc_metric 1 one_pos).self] at this
    nlinarith [mul_pos hR hpi]
  · have hk1' : k₁ = .enter := by rcases hk1 with h | h; exacts [absurd h.1 f0, h.2]
    have hk2' : k₂ = .exit := by rcases hk2 with h | h; exacts [absurd h.1 f1, h.2]
    subst hk1' hk2'
    rw [hl] at h2
    refine ⟨t₁, t₂, lt_of_le_of_ne h0 fun hc => f0 ?_, h12, h2, ?_⟩
    · obtain ⟨X, hX, hr⟩ := (hin 0 le_rfl (by rw [hl]; positivity)).2 ⟨by linarith, by linarith⟩
      rw [mul_zero, east_leg.fair.at_iff one_pos] at hX
      have : Globe.place X = Globe.place east0.ll := by rw [hX.2, zero_mul, zero_div, Globe.arc_zero]
      simp only [arcLen, this] at hr
      exact hr
    · have hres' : eastI east0 east90 R 7 = some res := hres
      simp [Queued.processPair, Queued.scan, hres', he, Queued.absorb, Queued.pairUp, Queued.valid]

/-- The actor on its way, before it is seen at `t₁`. -/
noncomputable def eastOn (t₁ t₂ : ℝ) (stage : Queued.Stage ℝ) (τ : Path.St Geo) : World Geo :=
  { setLoc eastS 0 0 τ with
    mgr := { now := 0, detect := fun _ => some true, sensors := [7], movers := [(0, ⟨R, [east0, east90], 0⟩)],
             events := Queued.upd (fun _ => []) 0 [(7, 0)], inView := fun _ => [],
             procs := [⟨0, 7, ⟨.enter, t₁⟩, ⟨.exit, t₂⟩, stage, false⟩], log := [] } }

theorem east_start (t₁ t₂ : ℝ) (h : 0 < t₁) (hp : Queued.processPair eastI ⟨R, [east0, east90], 0⟩ 7 = some [(⟨.enter, t₁⟩, ⟨.exit, t₂⟩)]) :
    ∃ τ : Path.St Geo, τ.now = 0 ∧ step eastC eastS (.activate 0 0 R [east90]) = (eastOn t₁ t₂ .fresh τ, .path .done) := by
  have hq : Queued.startMover eastC.inter eastS.mgr 0 R [east0, east90] = ((eastOn t₁ t₂ .fresh ⟨0, east0, none, false⟩).mgr, .ok) := by
    simp [Queued.startMover, eastS, eastW, init, Queued.St.init, Dict.has, Dict.set, Queued.find, Queued.findOne, Dict.get?, eastC, hp, Queued.schedule, eastOn, not_le.2 h]
  have hd : (Path.step (geodetic (spherical 1)) (eastS.loc 0 0) (.activate R [east90])).2 = .done := by
    rcases start_idle (geodetic (spherical 1)) (eastS.loc 0 0) rfl R [east90] with ⟨h, -⟩ | ⟨h, -⟩
    · exact absurd h R_pos.ne'
    · exact h
  have hn : (Path.step (geodetic (spherical 1)) (eastS.loc 0 0) (.activate R [east90])).1.now = 0 := by
    simp [Path.step, Path.read, Path.setup, Path.onPath, eastS, eastW, init, R_pos.ne']
  refine ⟨_, hn, ?_⟩
  simp only [step, Op.actor, act, Drive.activate]
  rw [if_pos (show 0 < eastS.count from one_pos)]
  cases hp : Path.step eastC.kind (eastS.loc 0 0) (.activate R [east90]) with
  | mk τ o =>
    rw [show Path.step (geodetic (spherical 1)) (eastS.loc 0 0) (.activate R [east90]) = (τ, o) from hp] at hd ⊢
    dsimp only at hd ⊢
    subst hd
    dsimp only
    rw [if_neg (by simp [eastS, eastW, init])]
    rw [show (eastS.loc 0 0).value :: [east90] = [east0, east90] from rfl, hq]
    rfl

theorem east_fire (t₁ t₂ : ℝ) (h : 0 < t₁) (τ : Path.St Geo) : (step eastC (eastOn t₁ t₂ .fresh τ) (.fire 0)).1 = eastOn t₁ t₂ (.entry t₁) τ := by
  simp [step, Op.actor, act, Queued.fire, eastOn, Queued.begins, Queued.setProc, setLoc, not_le.2 h]

/-- Before it is seen the clock may move on. -/
theorem east_advance (t₁ : ℝ) (w : World Geo) (hw : ∀ p ∈ w.mgr.procs, p.stage = .entry t₁ ∧ p.intr = false) (t : ℝ) (h1 : w.mgr.now ≤ t) (h2 : t ≤ t₁) :
    (step eastC w (.advance t)).1.mgr = { w.mgr with now := t } := by
  have hq : Queued.step eastC.inter w.mgr (.advance t) = ({ w.mgr with now := t }, .ok) := by
    simp only [Queued.step]
    rw [if_pos]
    refine ⟨h1, fun p hp => ?_⟩
    obtain ⟨g1, g2⟩ := hw p hp
    simp [Queued.Idle, g1, g2, h2]
  simp only [step, Op.actor, act, hq]

example : ∃ t₁ > 0, ∃ w₁ w₂ : World Geo, w₁.mgr.now = t₁ / 4 ∧ w₂.mgr.now = t₁ / 2 ∧ w₁ = run eastC eastS [.activate 0 0 R [east90], .fire 0, .advance (t₁ / 4)] ∧
    w₂ = run eastC w₁ [.advance (t₁ / 2)] ∧
    ∃ X new, (step eastC w₁ (.read 0 0)).2 = .path (.loc X) ∧ told w₂.mgr 0 7 = new ∧
      (arcLen 1 X.ll (0, 45) ≤ R * (10 * Real.pi / 180) ↔ Seen False new (t₁ / 4)) := by
  have hR := R_pos
  have hpi := Real.pi_pos
  obtain ⟨e0, e1, e2⟩ := east_ll
  obtain ⟨t₁, t₂, h0, h12, h2, hp⟩ := east_inter
  obtain ⟨τ, -, hst⟩ := east_start t₁ t₂ h0 hp
  have hf := east_fire t₁ t₂ h0 τ
  have a1 := east_advance t₁ (eastOn t₁ t₂ (.entry t₁) τ) (by simp [eastOn]) (t₁ / 4) (by show (0 : ℝ) ≤ _; linarith) (by linarith)
  have hn1 : (step eastC (eastOn t₁ t₂ (.entry t₁) τ) (.advance (t₁ / 4))).1.mgr.now = t₁ / 4 := by rw [a1]
  have a2 := east_advance t₁ (step eastC (eastOn t₁ t₂ (.entry t₁) τ) (.advance (t₁ / 4))).1 (by rw [a1]; simp [eastOn]) (t₁ / 2)
    (by rw [hn1]; linarith) (by linarith)
  have hn2 : (step eastC (step eastC (eastOn t₁ t₂ (.entry t₁) τ) (.advance (t₁ / 4))).1 (.advance (t₁ / 2))).1.mgr.now = t₁ / 2 := by rw [a2]
  have hlen : pathLen (arcLen 1) east0.ll ([east90].map Geo.ll) = R * (Real.pi / 2) := by
    simp only [List.map_cons, List.map_nil, pathLen, e0, e1, east_len 0 90 (by norm_num) (by norm_num), add_zero]
    ring
  have hnow : eastS.mgr.now = 0 := rfl
  have hval : (eastS.loc 0 0).value = east0 := rfl
  refine ⟨t₁, h0, _, _, hn1, hn2, by simp only [run, hst, hf], rfl, ?_⟩
  obtain ⟨X, new, g1, g2, g3⟩ := c75_seen_spherical_partial 1 1 one_pos (fun _ => east45) (fun _ => R * (10 * Real.pi / 180)) [0] eastC rfl 0 1 (fun _ => some true)
    (fun _ _ => east0) [.addSensor 7] eastS east_sensor.symm 0 0 7 one_pos R hR [east90] (by simp) rfl rfl (by simp [eastS])
    (by intro p hp; simp [eastS, eastW, init, Queued.St.init] at hp) (by rw [hst])
    (by
      rw [hval]
      intro l hl
      simp only [List.mem_cons, List.not_mem_nil, or_false] at hl
      rcases hl with rfl | rfl
      · exact ⟨rfl, by rw [e0]; constructor <;> norm_num⟩
      · exact ⟨rfl, by rw [e1]; constructor <;> norm_num⟩)
    east_legs east_miss (by simp [eastS, eastW, init, Queued.St.init])
    [.fire 0, .advance (t₁ / 4)] [.advance (t₁ / 2)] (by simp [Op.Foreign]) _ _ (by simp only [run, hst, hf]; rfl) rfl
    (by rw [hn1]; simp only [run]; rw [hn2]; linarith) (by rw [hn1, hnow]; linarith)
    (by rw [hn1, hnow, hval, hlen]; exact mul_le_mul_of_nonneg_left (by linarith) hR.le)
    (by
      intro pre post he hne
      have hp : pre = [east90] := by
        match pre, he with
        | [], _ => exact absurd rfl hne
        | [x], he => simp at he; rw [he.1]
        | _ :: _ :: _, he => simp at he
      rw [hn1, hnow, hval, hp, hlen, mul_div_cancel_left₀ _ hR.ne']
      rintro ⟨hc, -⟩
      linarith)
  refine ⟨X, new, g1, g2, ?_⟩
  rw [hn1] at g3
  simp only [e2] at g3
  rw [g3]
  simp [eastS, eastW, init, Queued.St.init]

end Verif.Drive
