import Verif.Drive.Clock

/-! # C75: sensors see actors where they are -/

namespace Verif.Drive

open Verif.Path (Loc At euclid pathLen cartesian)
open Verif.Queued (told Seen cartI LegOk Misses NoTouch InRange Dead)
open Verif.Sphere (V)

variable {P : Type}

/-- There is one point at a path length when no leg has length zero. -/
theorem at_unique (p : V) (ws : List V) (hne : ∀ pre a b post, p :: ws = pre ++ a :: b :: post → a ≠ b) (s : ℝ) (X Y : V) (hX : At euclid p ws s X) (hY : At euclid p ws s Y) :
    X = Y := by
  induction ws generalizing p s with
  | nil => obtain ⟨pre, w, post, a, h0, -⟩ := hX; simp at h0
  | cons w ws ih =>
    have hpw : p ≠ w := hne [] p w ws rfl
    rcases le_total s (euclid p w) with h | h
    · rw [Queued.at_cons _ _ _ _ _ hpw h] at hX hY
      rw [Sphere.at_segment _ _ hpw _ _ hX, Sphere.at_segment _ _ hpw _ _ hY]
    · cases ws with
      | nil => rw [Sphere.at_segment _ _ hpw _ _ hX, Sphere.at_segment _ _ hpw _ _ hY]
      | cons w' ws =>
        rw [Queued.at_rest _ _ _ (by simp) _ _ hpw h] at hX hY
        exact ih w (fun pre a b post he => hne (p :: pre) a b post (by rw [he]; rfl)) _ hX hY

/-- What has happened when an actor has started a motion. -/
theorem activate_done (c : Cfg P) (w : World P) (a n : Nat) (v : ℝ) (ws : List P) (ha : a < w.count) (hc : w.copy a = false)
    (h : (step c w (.activate a n v ws)).2 = .path .done) :
    (Queued.step c.inter w.mgr (.start a v ((w.loc a n).value :: ws))).2 = .ok ∧
      (step c w (.activate a n v ws)).1.mgr = (Queued.step c.inter w.mgr (.start a v ((w.loc a n).value :: ws))).1 ∧
      (step c w (.activate a n v ws)).1.loc a n = (Path.step c.kind (w.loc a n) (.activate v ws)).1 := by
  simp only [step, Op.actor, if_pos ha, act, Drive.activate, Queued.step] at h ⊢
  cases hp : Path.step c.kind (w.loc a n) (.activate v ws) with
  | mk τ o =>
    rw [hp] at h
    cases o with
    | done =>
      dsimp only at h ⊢
      rw [hc] at h ⊢
      simp only [Bool.false_eq_true, if_false] at h ⊢
      cases hm : Queued.startMover c.inter w.mgr a v ((w.loc a n).value :: ws) with
      | mk μ o =>
        rw [hm] at h
        cases o with
        | ok => exact ⟨rfl, rfl, setLoc_self _ _ _ _⟩
        | error => simp at h
        | refused => simp at h
    | error => simp at h
    | loc p => simp at h
    | list p => simp at h

/-- A motion in the world is a motion of the location state and a trip of the manager's, both on the clock of the simulation. -/
theorem project (c : Cfg P) (t0 : ℝ) (n0 : Nat) (det : Nat → Option Bool) (val : Nat → Nat → P) (ops₀ : List (Op P)) (w : World P) (hw : w = run c (init t0 n0 det val) ops₀)
    (a n s : Nat) (ha : a < n0) (v : ℝ) (ws : List P) (hok : (step c w (.activate a n v ws)).2 = .path .done)
    (ops₁ ops₂ : List (Op P)) (hops : ∀ o ∈ ops₁ ++ ops₂, o.Foreign a s) (w₁ w₂ : World P)
    (hw₁ : w₁ = run c (step c w (.activate a n v ws)).1 ops₁) (hw₂ : w₂ = run c w₁ ops₂) :
    ∃ (μ : Queued.St ℝ P) (d : Nat → Option Bool) (qs₀ qs : List (Queued.Op ℝ P)) (os : List (Path.Op P)),
      μ = Queued.run c.inter (Queued.St.init t0 det) qs₀ ∧ w.mgr = re μ d ∧ d a = μ.detect a ∧
      (Queued.step c.inter μ (.start a v ((w.loc a n).value :: ws))).2 = .ok ∧ (∀ q ∈ qs, Queued.Foreign a s q) ∧
      told w₂.mgr a s = told (Queued.run c.inter (Queued.step c.inter μ (.start a v ((w.loc a n).value :: ws))).1 qs) a s ∧
      w₂.mgr.now = (Queued.run c.inter (Queued.step c.inter μ (.start a v ((w.loc a n).value :: ws))).1 qs).now ∧
      (∀ o ∈ os, o.During) ∧ (w.loc a n).now = w.mgr.now ∧ (Path.under c.kind (w.loc a n) v ws os).now = w₁.mgr.now ∧
      (step c w₁ (.read a n)).2 = .path (Path.step c.kind (Path.under c.kind (w.loc a n) v ws os) .read).2 := by
  -- the run without clones
  obtain ⟨S0, -⟩ := (Sim.init t0 n0 det val).run c ops₀
  rw [← hw] at S0
  generalize hv0 : run c (init t0 n0 det val) (ops₀.flatMap (erase n0)) = u at S0
  have hearn : ∀ os : List (Op P), ∀ o ∈ os.flatMap (erase n0), o.Earnest := by
    intro os o ho
    obtain ⟨y, -, hy⟩ := List.mem_flatMap.1 ho
    exact (erase_earnest n0 y o hy).1
  have hforn : ∀ os : List (Op P), (∀ o ∈ os, o.Foreign a s) → ∀ o ∈ os.flatMap (erase n0), o.Foreign a s := by
    intro os hos o ho
    obtain ⟨y, hy', hy⟩ := List.mem_flatMap.1 ho
    exact (erase_earnest n0 y o hy).2 a s (hos y hy')
  obtain ⟨R0, P0⟩ := (Real.init t0 n0 det val).run c (ops₀.flatMap (erase n0)) (hearn _) a s n ha
  rw [hv0] at R0 P0
  obtain ⟨qs0, hqs0, -⟩ := P0.mgr
  obtain ⟨d, hd, hda⟩ := S0.mgr
  have hloc := congrFun (S0.loc a ha) n
  -- the start
  have her : erase n0 (.activate a n v ws) = [Op.activate a n v ws] := by simp [erase, Op.actor, ha]
  obtain ⟨S1, A1⟩ := S0.step c (.activate a n v ws)
  rw [her] at S1 A1
  have hA : (step c u (.activate a n v ws)).2 = .path .done := by
    simp only [answers, Visible, Op.actor, ha, decide_true, if_true, List.append_nil, List.cons.injEq, and_true] at A1
    rw [← A1]; exact hok
  have hcu : a < u.count := by rw [R0.count]; exact ha
  obtain ⟨hst, hmg, hlc⟩ := activate_done c u a n v ws hcu (R0.copy a ha) hA
  obtain ⟨R1, -⟩ := R0.step c (.activate a n v ws) trivial a s n ha
  -- on the way
  obtain ⟨S2, -⟩ := S1.run c ops₁
  rw [← hw₁] at S2
  change Sim n0 w₁ (run c (step c u (.activate a n v ws)).1 (ops₁.flatMap (erase n0))) at S2
  obtain ⟨R2, P2⟩ := R1.run c (ops₁.flatMap (erase n0)) (hearn _) a s n ha
  generalize hu1 : run c (step c u (.activate a n v ws)).1 (ops₁.flatMap (erase n0)) = u₁ at S2 R2 P2
  obtain ⟨qs1, hqs1, hf1⟩ := P2.mgr
  obtain ⟨os1, hos1, hdur⟩ := P2.loc (hforn _ fun o ho => hops o (by simp [ho]))
  obtain ⟨S3, -⟩ := S2.run c ops₂
  rw [← hw₂] at S3
  obtain ⟨R3, P3⟩ := R2.run c (ops₂.flatMap (erase n0)) (hearn _) a s n ha
  generalize hu2 : run c u₁ (ops₂.flatMap (erase n0)) = u₂ at S3 R3 P3
  obtain ⟨qs2, hqs2, hf2⟩ := P3.mgr
  obtain ⟨d1, hd1, -⟩ := S2.mgr
  obtain ⟨d2, hd2, -⟩ := S3.mgr
  have hun : u₁.loc a n = Path.under c.kind (w.loc a n) v ws os1 := by rw [hos1, hlc, hloc]; rfl
  rw [← hloc] at hst hmg
  refine ⟨u.mgr, d, qs0, qs1 ++ qs2, os1, hqs0, hd, hda a ha, hst, ?_, ?_, ?_, hdur, ?_, ?_, ?_⟩
  · intro q hq'
    rcases List.mem_append.1 hq' with hx | hx
    · exact hf1 (hforn _ fun o ho => hops o (by simp [ho])) q hx
    · exact hf2 (hforn _ fun o ho => hops o (by simp [ho])) q hx
  · rw [q_append, ← hmg, ← hqs1, ← hqs2, hd2]; rfl
  · rw [q_append, ← hmg, ← hqs1, ← hqs2, hd2]; rfl
  · rw [hloc, R0.clock a ha n, hd]; rfl
  · rw [← hun, R2.clock a ha n, hd1]; rfl
  · have hcw : a < w₁.count := lt_of_lt_of_le ha S2.le
    simp only [step, Op.actor, if_pos hcw, act, plain, congrFun (S2.loc a ha) n, hun]

/-- **C75, sensors see actors where they are (the part that holds).** On a stage with the cartesian intersection model, a detectable actor
starts a motion from where it is. Under the conditions of `c43_cartesian_partial` and `c18_position_partial`, whatever else happens, including
rehearsals, reading the location of the actor at some time on its way gives a place which is in the range of a sensor exactly when, according to
what the sensor is told up to any later time, the actor was in range at that time. Missing: the cases excluded by these conditions. -/
theorem c75_seen_partial (k : ℝ) (place : Nat → Loc) (radius : Nat → ℝ) (states : List Nat) (c : Cfg Loc) (hcfg : c = ⟨cartesian k, cartI k place radius, states⟩)
    (t0 : ℝ) (n0 : Nat) (det : Nat → Option Bool) (val : Nat → Nat → Loc) (ops₀ : List (Op Loc)) (w : World Loc) (hw : w = run c (init t0 n0 det val) ops₀)
    (a n s : Nat) (ha : a < n0) (v : ℝ) (hv : 0 < v) (ws : List Loc) (hws : ws ≠ []) (hl : (w.loc a n).locked = false)
    (hdet : w.mgr.detect a = some true) (hs : s ∈ w.mgr.sensors) (hq : Dead w.mgr a s) (hok : (step c w (.activate a n v ws)).2 = .path .done)
    (halts : (place s).altUnits = false) (hr : 0 < radius s) (halt : ∀ l ∈ (w.loc a n).value :: ws, l.altUnits = false)
    (hleg : ∀ pre x y post, (w.loc a n).value :: ws = pre ++ x :: y :: post → LegOk k x y ((place s).place k) (radius s))
    (hmiss : ∀ pre x y post, (w.loc a n).value :: ws = pre ++ x :: y :: post → Misses k x y ((place s).place k) (radius s) →
      ∀ t X, At euclid (y.place k) (post.map (Loc.place k)) t X → radius s < euclid X ((place s).place k))
    (hn : NoTouch (InRange k ((w.loc a n).value :: ws) v ((place s).place k) (radius s) w.mgr.now) w.mgr.now
      (w.mgr.now + pathLen euclid ((w.loc a n).value.place k) (ws.map (Loc.place k)) / v))
    (hwas : s ∈ w.mgr.inView a → euclid ((w.loc a n).value.place k) ((place s).place k) ≤ radius s)
    (ops₁ ops₂ : List (Op Loc)) (hops : ∀ o ∈ ops₁ ++ ops₂, o.Foreign a s) (w₁ w₂ : World Loc)
    (hw₁ : w₁ = run c (step c w (.activate a n v ws)).1 ops₁) (hw₂ : w₂ = run c w₁ ops₂) (hlt : w₁.mgr.now < w₂.mgr.now)
    (hpos : w.mgr.now < w₁.mgr.now) (hend : v * (w₁.mgr.now - w.mgr.now) ≤ pathLen euclid ((w.loc a n).value.place k) (ws.map (Loc.place k)))
    (hclear : ∀ pre post, ws = pre ++ post → pre ≠ [] →
      ¬ (pathLen euclid ((w.loc a n).value.place k) (pre.map (Loc.place k)) / v < w₁.mgr.now - w.mgr.now ∧
        w₁.mgr.now - w.mgr.now ≤ pathLen euclid ((w.loc a n).value.place k) (pre.map (Loc.place k)) / v + Path.slack)) :
    ∃ X new, (step c w₁ (.read a n)).2 = .path (.loc X) ∧ told w₂.mgr a s = told w.mgr a s ++ new ∧
      (euclid (X.place k) ((place s).place k) ≤ radius s ↔ Seen (s ∈ w.mgr.inView a) new w₁.mgr.now) := by
  have hK : c.kind = cartesian k := by rw [hcfg]
  have hI : c.inter = cartI k place radius := by rw [hcfg]
  obtain ⟨μ, d, qs₀, qs, os, hμ, hd, hda, hst, hfor, htold, hnow₂, hdur, hnow₀, hnow₁, hread⟩ :=
    project c t0 n0 det val ops₀ w hw a n s ha v ws hok ops₁ ops₂ hops w₁ w₂ hw₁ hw₂
  have n0' : w.mgr.now = μ.now := by rw [hd]; rfl
  have hvw : s ∈ w.mgr.inView a ↔ s ∈ μ.inView a := by rw [hd]; rfl
  have ht0 : told w.mgr a s = told μ a s := by rw [hd]; rfl
  rw [hI] at hμ hst htold hnow₂
  rw [hK] at hnow₁ hread
  obtain ⟨X, hX, hat⟩ := Path.c18_position_partial k (w.loc a n) hl v hv ws os hdur (w₁.mgr.now - w.mgr.now) (by rw [hnow₁, hnow₀]) (by linarith) hend hclear
  rw [n0'] at hn hpos hend hclear hat
  rw [hvw] at hwas
  -- what the sensor is told
  have hserved := Queued.c43_cartesian_partial k place radius t0 det qs₀ μ hμ a s v hv (w.loc a n).value ws hws
    (by rw [← hda]; rw [hd] at hdet; exact hdet) (by rw [hd] at hs; exact hs) (by rw [hd] at hq; exact hq) hst halts hr halt hleg hmiss _ rfl hn hwas qs hfor
  obtain ⟨new, hnew, hright⟩ := hserved.told
  refine ⟨X, new, ?_, ?_, ?_⟩
  · rw [hread, hX]
  · rw [htold, ht0]; exact hnew
  · have hin := hright.complete w₁.mgr.now (by linarith) (by rw [← hnow₂]; exact hlt) (by
      have : w₁.mgr.now - μ.now ≤ pathLen euclid ((w.loc a n).value.place k) (ws.map (Loc.place k)) / v := by
        rw [le_div_iff₀ hv]; linarith
      linarith)
    rw [hvw]
    simp only [decide_eq_true_eq] at hin
    rw [← hin]
    constructor
    · intro h; exact ⟨_, hat, h⟩
    · rintro ⟨Y, hY, h⟩
      have : X.place k = Y := by
        refine at_unique _ _ ?_ _ _ _ hat hY
        intro pre x y post he
        rw [← List.map_cons, List.map_eq_append_iff] at he
        obtain ⟨l1, l2, h1, -, h3⟩ := he
        obtain ⟨x', l3, h4, rfl, h5⟩ := List.map_eq_cons_iff.1 h3
        obtain ⟨y', l4, h6, rfl, -⟩ := List.map_eq_cons_iff.1 h5
        exact (hleg l1 x' y' l4 (by rw [h1, h4, h6])).1
      rw [this]; exact h

end Verif.Drive
