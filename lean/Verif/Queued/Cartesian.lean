import Verif.Queued.Restart
import Verif.Sphere.Props

/-! # C43 with the cartesian intersection model -/

namespace Verif.Queued

open Verif.Sphere Verif.Path

/-- `cartesian_linear_intersection` as the intersection model of a manager (motion.py 225-237): the three lists are zipped. `k` is the
number of distance units in an altitude unit, `place` and `radius` are those of the sensors. -/
noncomputable def cartI (k : ℝ) (place : Nat → Loc) (radius : Nat → ℝ) : Inter ℝ Loc := fun w w' v s =>
  (crossing k w w' v (place s) (radius s)).map fun res => ⟨(res.types.zip (res.inters.zip res.times)).map fun x => ⟨x.1, x.2.2⟩, res.pathTime⟩

/-- A mover going along `ls` (start and waypoints) from time `x` with speed `v` is within `r` of `c` at time `τ`. -/
def InRange (k : ℝ) (ls : List Loc) (v : ℝ) (c : V) (r : ℝ) (x τ : ℝ) : Prop :=
  match ls with
  | [] => False
  | p :: ws => ∃ X, At euclid (p.place k) (ws.map (Loc.place k)) (v * (τ - x)) X ∧ euclid X c ≤ r

/-- The leg from `a` to `b` is never within `r` of `c`. -/
def Misses (k : ℝ) (a b : Loc) (c : V) (r : ℝ) : Prop := ∀ s X, At euclid (a.place k) [b.place k] s X → r < euclid X c

/-- The legs for which the crossings are right (`c44_exact_partial`): a leg has a length; if it starts exactly on the sphere and ends
outside, it leads away; if it ends exactly on the sphere and starts outside, it leads towards the sensor. -/
def LegOk (k : ℝ) (a b : Loc) (c : V) (r : ℝ) : Prop :=
  a.place k ≠ b.place k ∧
  ¬ (euclid (a.place k) c = r ∧ r < euclid (b.place k) c ∧ dot (sub (a.place k) c) (sub (b.place k) (a.place k)) ≤ 0) ∧
  ¬ (euclid (b.place k) c = r ∧ r < euclid (a.place k) c ∧ 0 ≤ dot (sub (b.place k) c) (sub (b.place k) (a.place k)))

/-- The times of the legs. -/
noncomputable def legTimes (k v : ℝ) : List Loc → List ℝ
  | a :: b :: l => euclid (a.place k) (b.place k) / v :: legTimes k v (b :: l)
  | _ => []

theorem at_cons (p w : V) (ws : List V) (s : ℝ) (X : V) (hpw : p ≠ w) (h1 : s ≤ euclid p w) : At euclid p (w :: ws) s X ↔ At euclid p [w] s X := by
  have hD : 0 < euclid p w := lt_of_le_of_ne (euclid_nonneg _ _) fun hc => hpw (euclid_eq_zero hc.symm)
  constructor
  · rintro ⟨pre, w', post, a, h0, rfl, g1, g2, g3, g4⟩
    cases pre with
    | nil =>
      simp only [List.nil_append, List.cons.injEq] at h0
      obtain ⟨rfl, -⟩ := h0
      exact ⟨[], w, [], p, rfl, rfl, g1, g2, g3, g4⟩
    | cons y pre =>
      simp only [List.cons_append, List.cons.injEq] at h0
      obtain ⟨rfl, -⟩ := h0
      simp only [pathLen] at g1 g2 g3
      have hnn : ∀ (l : List V) (q : V), 0 ≤ pathLen euclid q l := fun l q => pathLen_nonneg euclid euclid_nonneg q l
      have hz : pathLen euclid w pre = 0 := le_antisymm (by linarith) (hnn _ _)
      have hs : s = euclid p w := le_antisymm h1 (by linarith [hnn pre w])
      have hlast : ∀ (l : List V) (q : V), pathLen euclid q l = 0 → l.getLastD q = q := by
        intro l
        induction l with
        | nil => intro q _; rfl
        | cons b l ih =>
          intro q hq
          simp only [pathLen] at hq
          have e1 := euclid_nonneg q b
          have e2 := hnn l b
          have : q = b := euclid_eq_zero (by linarith)
          subst this
          rw [List.getLastD_cons]
          exact ih q (by linarith)
      rw [List.getLastD_cons, hlast pre w hz, hz] at g3
      have hX : w = X := euclid_eq_zero (by rw [g3, hs]; ring)
      subst hX
      exact ⟨[], w, [], p, rfl, rfl, by simp [pathLen]; linarith, by simp [pathLen]; exact h1, by simp [pathLen]; exact hs.symm, by simp [euclid_self]⟩
  · rintro ⟨pre, w', post, a, h0, rfl, g1, g2, g3, g4⟩
    have hpre : pre = [] := by
      cases pre with
      | nil => rfl
      | cons x l => simp at h0
    subst hpre
    simp only [List.nil_append, List.cons.injEq] at h0
    obtain ⟨rfl, -⟩ := h0
    exact ⟨[], w, ws, p, rfl, rfl, g1, g2, g3, g4⟩

theorem at_rest (p w : V) (ws : List V) (hne : ws ≠ []) (s : ℝ) (X : V) (hpw : p ≠ w) (h1 : euclid p w ≤ s) :
    At euclid p (w :: ws) s X ↔ At euclid w ws (s - euclid p w) X := by
  constructor
  · rintro ⟨pre, w', post, a, h0, rfl, g1, g2, g3, g4⟩
    cases pre with
    | nil =>
      simp only [List.nil_append, List.cons.injEq] at h0
      obtain ⟨rfl, rfl⟩ := h0
      simp only [pathLen, List.getLastD_nil] at g1 g2 g3 g4
      have hs : s = euclid p w := by linarith
      have hX : X = w := euclid_eq_zero (by rw [g4, g3, hs]; ring)
      subst hX
      obtain ⟨y, ys, rfl⟩ := List.exists_cons_of_ne_nil hne
      refine ⟨[], y, ys, X, rfl, rfl, ?_, ?_, ?_, ?_⟩ <;> simp only [pathLen, hs, euclid_self]
      · linarith
      · have := euclid_nonneg X y; linarith
      · ring
      · ring
    | cons y pre =>
      simp only [List.cons_append, List.cons.injEq] at h0
      obtain ⟨rfl, rfl⟩ := h0
      simp only [pathLen, List.getLastD_cons] at g1 g2 g3 g4
      exact ⟨pre, w', post, _, rfl, rfl, by linarith, by linarith, by rw [g3]; ring, g4⟩
  · intro h
    have := At.later (p := p) (pre := []) h
    simpa [pathLen] using this

theorem sum_legTimes (k v : ℝ) (p : Loc) (ws : List Loc) : (legTimes k v (p :: ws)).sum = pathLen euclid (p.place k) (ws.map (Loc.place k)) / v := by
  induction ws generalizing p with
  | nil => simp [legTimes, pathLen]
  | cons w ws ih => simp only [legTimes, List.sum_cons, ih, List.map_cons, pathLen]; ring

theorem legTimes_nonneg (k v : ℝ) (hv : 0 < v) (ls : List Loc) : 0 ≤ (legTimes k v ls).sum := by
  cases ls with
  | nil => simp [legTimes]
  | cons p ws => rw [sum_legTimes]; exact div_nonneg (pathLen_nonneg _ euclid_nonneg _ _) hv.le

/-- **The cartesian model is exact** on a path on which, after a leg that misses the sensor, the mover does not get in range any more. -/
theorem cart_exact (k : ℝ) (place : Nat → Loc) (radius : Nat → ℝ) (s : Nat) (hs : (place s).altUnits = false) (hr : 0 < radius s) (v : ℝ) (hv : 0 < v)
    (inside : ℝ → Prop) : ∀ (ls : List Loc) (x : ℝ),
    (∀ τ, x ≤ τ → τ ≤ x + (legTimes k v ls).sum → (inside τ ↔ InRange k ls v ((place s).place k) (radius s) x τ)) →
    (∀ l ∈ ls, l.altUnits = false) →
    (∀ pre a b post, ls = pre ++ a :: b :: post → LegOk k a b ((place s).place k) (radius s)) →
    (∀ pre a b post, ls = pre ++ a :: b :: post → Misses k a b ((place s).place k) (radius s) →
      ∀ t X, At euclid (b.place k) (post.map (Loc.place k)) t X → radius s < euclid X ((place s).place k)) →
    ExactPath (cartI k place radius) v s inside ls (legTimes k v ls) x := by
  intro ls
  induction ls with
  | nil => intro x _ _ _ _; trivial
  | cons p ws ih =>
    intro x hin halt hleg hmiss
    cases ws with
    | nil => trivial
    | cons f ws =>
      set c := (place s).place k with hc
      set r := radius s with hr'
      obtain ⟨hpf, hb1, hb2⟩ := hleg [] p f ws rfl
      have hD : 0 < euclid (p.place k) (f.place k) := lt_of_le_of_ne (euclid_nonneg _ _) fun hc => hpf (euclid_eq_zero hc.symm)
      have hD' : 0 < euclid (p.place k) (f.place k) / v := div_pos hD hv
      have hrest := legTimes_nonneg k v hv (f :: ws)
      have hsum : (legTimes k v (p :: f :: ws)).sum = euclid (p.place k) (f.place k) / v + (legTimes k v (f :: ws)).sum := by simp [legTimes]
      rw [hsum] at hin
      obtain ⟨res, hres, hcase⟩ := c44_exact_partial k p f (place s) (halt p (by simp)) (halt f (by simp)) hs r v hr hv _ _ _ rfl rfl rfl hpf hb1 hb2 _ rfl
      rw [← hc] at hcase
      -- in range during the first leg
      have hleg1 : ∀ τ, x ≤ τ → τ ≤ x + euclid (p.place k) (f.place k) / v → (inside τ ↔ Within (p.place k) (f.place k) c r v (τ - x)) := by
        intro τ h1 h2
        have hle : v * (τ - x) ≤ euclid (p.place k) (f.place k) := by
          have : τ - x ≤ euclid (p.place k) (f.place k) / v := by linarith
          rw [le_div_iff₀ hv] at this; linarith
        rw [hin τ h1 (by linarith)]
        simp only [InRange, List.map_cons, Within, at_cons _ _ _ _ _ hpf hle]
      refine ⟨hD'.le, ⟨(res.types.zip (res.inters.zip res.times)).map fun x => ⟨x.1, x.2.2⟩, res.pathTime⟩, by simp [cartI, hres, ← hr'], ?_, ?_, ?_⟩
      · rcases hcase with ⟨e1, e2, e3, _, hno⟩ | ⟨X₁, X₂, t₁, t₂, e1, e2, e3, h0, h12, hT, _, _, hw, e4⟩
        · refine .inl ⟨by simp [e1, e3], fun τ h1 h2 => ?_⟩
          rw [hleg1 τ h1 h2]
          exact hno _ (by linarith) (by linarith)
        · have hends : (inside x ↔ euclid (p.place k) c ≤ r) ∧ (inside (x + euclid (p.place k) (f.place k) / v) ↔ euclid (f.place k) c ≤ r) := by
            constructor
            · rw [hleg1 x (le_refl _) (by linarith), within_iff _ _ _ hpf r v _ hv (by linarith) (by linarith)]
              simp [along_zero]
            · rw [hleg1 _ (by linarith) (le_refl _), within_iff _ _ _ hpf r v _ hv (by linarith) (by linarith), add_sub_cancel_left, div_self hD'.ne', along_one]
          refine .inr ⟨_, _, t₁, t₂, by rw [e1, e2, e4]; rfl, h0, h12, hT, fun τ h1 h2 => ?_, ?_, ?_⟩
          · rw [hleg1 τ h1 h2, hw _ (by linarith) (by linarith)]
            constructor
            · exact fun h => ⟨by linarith [h.1], by linarith [h.2]⟩
            · exact fun h => ⟨by linarith [h.1], by linarith [h.2]⟩
          · rw [hends.1]
            by_cases h : euclid (p.place k) c ≤ r
            · exact .inl ⟨h, if_pos h⟩
            · exact .inr ⟨h, if_neg h⟩
          · rw [hends.2]
            by_cases h : euclid (f.place k) c ≤ r
            · exact .inl ⟨h, if_pos h⟩
            · exact .inr ⟨h, if_neg h⟩
      · rcases hcase with ⟨e1, e2, e3, _, hno⟩ | ⟨X₁, X₂, t₁, t₂, e1, e2, e3, _⟩
        · right
          have hm : Misses k p f c r := by
            intro t X hX
            by_contra hle
            have h1 : 0 ≤ t ∧ t ≤ euclid (p.place k) (f.place k) := by
              obtain ⟨pre, w', post, a, g0, rfl, g1, g2, -, -⟩ := hX
              cases pre with
              | nil =>
                simp only [List.nil_append, List.cons.injEq] at g0
                obtain ⟨rfl, -⟩ := g0
                simpa [pathLen] using And.intro g1 g2
              | cons y l => simp at g0
            refine hno (t / v) (div_nonneg h1.1 hv.le) (div_le_div_of_nonneg_right h1.2 hv.le) ⟨X, ?_, not_lt.1 hle⟩
            rwa [mul_div_cancel₀ _ hv.ne']
          intro τ h1 h2 hins
          rw [hin τ h1 h2] at hins
          obtain ⟨X, hX, hle⟩ := hins
          rw [List.map_cons] at hX
          by_cases hcmp : v * (τ - x) ≤ euclid (p.place k) (f.place k)
          · exact absurd hle (not_le.2 (hm _ X ((at_cons _ _ _ _ _ hpf hcmp).1 hX)))
          · by_cases hws : ws = []
            · subst hws
              simp only [legTimes, List.sum_nil, add_zero] at h2
              have : τ - x ≤ euclid (p.place k) (f.place k) / v := by linarith
              rw [le_div_iff₀ hv] at this
              exact hcmp (by linarith)
            · have := hmiss [] p f ws rfl hm _ X ((at_rest _ _ _ (by simpa using hws) _ _ hpf (not_le.1 hcmp).le).1 hX)
              linarith
        · exact .inl e3
      · cases ws with
        | nil => trivial
        | cons w ws =>
          refine ih _ (fun τ h1 h2 => ?_) (fun l hl => halt l (List.mem_cons_of_mem _ hl)) (fun pre a b post h => hleg (p :: pre) a b post (by rw [h]; rfl))
            (fun pre a b post h => hmiss (p :: pre) a b post (by rw [h]; rfl))
          have hge : euclid (p.place k) (f.place k) ≤ v * (τ - x) := by
            have : euclid (p.place k) (f.place k) / v ≤ τ - x := by linarith
            rw [div_le_iff₀ hv] at this; linarith
          rw [hin τ (by linarith) (by linarith)]
          have heq : v * (τ - (x + euclid (p.place k) (f.place k) / v)) = v * (τ - x) - euclid (p.place k) (f.place k) := by field_simp; ring
          simp only [InRange, List.map_cons, heq]
          have := at_rest (p.place k) (f.place k) ((w :: ws).map (Loc.place k)) (by simp) (v * (τ - x))
          simp only [List.map_cons] at this
          simp only [this _ hpf hge]

/-- **C43 for cartesian locations.** A detectable mover starts at `p` with speed `v` along `ws`. Under the conditions of the leg
computation, if after a leg that misses the sensor it does not get in range any more and it does not merely touch the range, then
whatever else happens, at any time the sensor has been told exactly of the entries and exits up to now: when the distance of the point
at path length `v · (τ - start)` from the sensor becomes at most the radius, and when it becomes larger. -/
theorem c43_cartesian_partial (k : ℝ) (place : Nat → Loc) (radius : Nat → ℝ) (t0 : ℝ) (det : Nat → Option Bool) (ops₀ : List (Op ℝ Loc)) (σ : St ℝ Loc)
    (hσ : σ = run (cartI k place radius) (St.init t0 det) ops₀) (m s : Nat) (v : ℝ) (hv : 0 < v) (p : Loc) (ws : List Loc) (hws : ws ≠ [])
    (hdet : σ.detect m = some true) (hs : s ∈ σ.sensors) (hq : Dead σ m s) (hok : (step (cartI k place radius) σ (.start m v (p :: ws))).2 = .ok)
    (halts : (place s).altUnits = false) (hr : 0 < radius s) (halt : ∀ l ∈ p :: ws, l.altUnits = false)
    (hleg : ∀ pre a b post, p :: ws = pre ++ a :: b :: post → LegOk k a b ((place s).place k) (radius s))
    (hmiss : ∀ pre a b post, p :: ws = pre ++ a :: b :: post → Misses k a b ((place s).place k) (radius s) →
      ∀ t X, At euclid (b.place k) (post.map (Loc.place k)) t X → radius s < euclid X ((place s).place k))
    (T : ℝ) (hT : T = pathLen euclid (p.place k) (ws.map (Loc.place k)) / v)
    (hn : NoTouch (InRange k (p :: ws) v ((place s).place k) (radius s) σ.now) σ.now (σ.now + T))
    (hwas : s ∈ σ.inView m → euclid (p.place k) ((place s).place k) ≤ radius s)
    (ops : List (Op ℝ Loc)) (hops : ∀ o ∈ ops, Foreign m s o) :
    Served m s (InRange k (p :: ws) v ((place s).place k) (radius s) σ.now) σ.now (σ.now + T) (decide (s ∈ σ.inView m)) (told σ m s)
      (run (cartI k place radius) (step (cartI k place radius) σ (.start m v (p :: ws))).1 ops) := by
  obtain ⟨f, ws', rfl⟩ := List.exists_cons_of_ne_nil hws
  rw [hT, ← sum_legTimes] at hn ⊢
  have hpf := (hleg [] p f ws' rfl).1
  have hD : 0 < euclid (p.place k) (f.place k) := lt_of_le_of_ne (euclid_nonneg _ _) fun hc => hpf (euclid_eq_zero hc.symm)
  refine c43_restart_partial (cartI k place radius) t0 det ops₀ σ hσ m s v (p :: f :: ws') hdet hs hq hok _ (legTimes k v (p :: f :: ws')) (by simp [legTimes])
    (cart_exact k place radius s halts hr v hv _ _ _ (fun _ _ _ => .rfl) halt hleg hmiss) hn (fun h => ⟨?_, legTimes_nonneg k v hv _⟩) ops hops
  refine ⟨p.place k, ?_, hwas h⟩
  rw [sub_self, mul_zero, List.map_cons, at_cons _ _ _ _ _ hpf hD.le]
  have := segment_at (p.place k) (f.place k) hpf 0 (le_refl _) hD.le
  rwa [zero_div, along_zero] at this

/-! The hypotheses are met: a sensor of radius 1 at the origin, and a mover going from (-3, 0, 0) to (3, 0, 0) with speed 1. -/

def demoP : Loc := ⟨-3, 0, 0, false⟩
def demoF : Loc := ⟨3, 0, 0, false⟩
noncomputable def demoI : Inter ℝ Loc := cartI 2 (fun _ => ⟨0, 0, 0, false⟩) fun _ => 1
noncomputable def demo0 : St ℝ Loc := run demoI (St.init 0 fun _ => some true) [.addSensor 7]

theorem demo_euclid (x y : ℝ) : euclid (x, 0, 0) (y, 0, 0) = |x - y| := by simp [euclid, Real.sqrt_sq_eq_abs]

theorem demo_range (τ : ℝ) (h0 : 0 ≤ τ) (h1 : τ ≤ 6) : InRange 2 [demoP, demoF] 1 (0, 0, 0) 1 0 τ ↔ 2 ≤ τ ∧ τ ≤ 4 := by
  have hlen : euclid (demoP.place 2) (demoF.place 2) = 6 := by
    rw [show demoP.place 2 = (-3, 0, 0) from rfl, show demoF.place 2 = (3, 0, 0) from rfl, demo_euclid]; norm_num
  have hne : demoP.place 2 ≠ demoF.place 2 := fun h => by rw [h, euclid_self] at hlen; norm_num at hlen
  have : InRange 2 [demoP, demoF] 1 (0, 0, 0) 1 0 τ ↔ Within (demoP.place 2) (demoF.place 2) (0, 0, 0) 1 1 τ := by simp [InRange, Within]
  rw [this, within_iff _ _ _ hne 1 1 τ one_pos h0 (by rw [hlen]; linarith), hlen]
  have : along (demoP.place 2) (sub (demoF.place 2) (demoP.place 2)) (τ / (6 / 1)) = (τ - 3, 0, 0) := by
    simp only [along, sub, demoP, demoF, Loc.place]
    refine Prod.ext ?_ (Prod.ext ?_ ?_) <;> simp; ring
  rw [this, demo_euclid, abs_le]
  constructor
  · exact fun h => ⟨by linarith [h.1], by linarith [h.2]⟩
  · exact fun h => ⟨by linarith [h.1], by linarith [h.2]⟩

example (ops : List (Op ℝ Loc)) (hops : ∀ o ∈ ops, Foreign 1 7 o) :
    Served 1 7 (InRange 2 [demoP, demoF] 1 (0, 0, 0) 1 0) 0 6 false [] (run demoI (step demoI demo0 (.start 1 1 [demoP, demoF])).1 ops) := by
  have e : demo0 = { (St.init 0 fun _ => some true : St ℝ Loc) with sensors := [7] } := by simp [demo0, run, step, addSensor, find, St.init, Dict.keys]
  have hlen : euclid (demoP.place 2) (demoF.place 2) = 6 := by
    rw [show demoP.place 2 = (-3, 0, 0) from rfl, show demoF.place 2 = (3, 0, 0) from rfl, demo_euclid]; norm_num
  have hne : demoP.place 2 ≠ demoF.place 2 := fun h => by rw [h, euclid_self] at hlen; norm_num at hlen
  have hsplit : ∀ (pre : List Loc) a b post, [demoP, demoF] = pre ++ a :: b :: post → a = demoP ∧ b = demoF ∧ post = [] := by
    intro pre a b post h
    match pre, h with
    | [], h => simp at h; exact ⟨h.1.symm, h.2.1.symm, h.2.2⟩
    | [_], h => simp at h
    | _ :: _ :: _, h => simp at h
  have hleg : ∀ (pre : List Loc) a b post, [demoP, demoF] = pre ++ a :: b :: post → LegOk 2 a b ((⟨0, 0, 0, false⟩ : Loc).place 2) 1 := by
    intro pre a b post h
    obtain ⟨rfl, rfl, -⟩ := hsplit pre a b post h
    refine ⟨hne, fun h => ?_, fun h => ?_⟩
    · have h1 := h.1
      rw [show demoP.place 2 = (-3, 0, 0) from rfl, show (⟨0, 0, 0, false⟩ : Loc).place 2 = (0, 0, 0) from rfl, demo_euclid] at h1
      norm_num at h1
    · have h1 := h.1
      rw [show demoF.place 2 = (3, 0, 0) from rfl, show (⟨0, 0, 0, false⟩ : Loc).place 2 = (0, 0, 0) from rfl, demo_euclid] at h1
      norm_num at h1
  have hmiss : ∀ (pre : List Loc) a b post, [demoP, demoF] = pre ++ a :: b :: post → Misses 2 a b ((⟨0, 0, 0, false⟩ : Loc).place 2) 1 →
      ∀ t X, At euclid (b.place 2) (post.map (Loc.place 2)) t X → 1 < euclid X ((⟨0, 0, 0, false⟩ : Loc).place 2) := by
    intro pre a b post h _ t X hX
    obtain ⟨-, -, rfl⟩ := hsplit pre a b post h
    obtain ⟨_, _, _, _, hc, -⟩ := hX
    simp at hc
  have hT : (6 : ℝ) = pathLen euclid (demoP.place 2) ([demoF].map (Loc.place 2)) / 1 := by simp [pathLen, hlen]
  have hn : NoTouch (InRange 2 [demoP, demoF] 1 ((⟨0, 0, 0, false⟩ : Loc).place 2) 1 0) 0 (0 + 6) := by
    rintro τ h0 h6 hin ⟨ε, he, h⟩
    rw [show (⟨0, 0, 0, false⟩ : Loc).place 2 = (0, 0, 0) from rfl] at hin h
    rw [demo_range τ h0 (by linarith)] at hin
    have hm : 0 < min (ε / 2) 1 := lt_min (by linarith) one_pos
    have := min_le_left (ε / 2) (1 : ℝ)
    have := min_le_right (ε / 2) (1 : ℝ)
    rcases le_or_gt τ 3 with hc | hc
    · refine h (τ + min (ε / 2) 1) (by linarith) (by linarith) (by linarith) (by linarith) (by linarith) ((demo_range _ (by linarith) (by linarith)).2 ⟨?_, ?_⟩) <;> linarith [hin.1]
    · refine h (τ - min (ε / 2) 1) (by linarith) (by linarith) (by linarith) (by linarith) (by linarith) ((demo_range _ (by linarith) (by linarith)).2 ⟨?_, ?_⟩) <;> linarith [hin.2]
  have hok : (step demoI demo0 (.start 1 1 [demoP, demoF])).2 = .ok := by
    obtain ⟨ps, hps, -⟩ := processPair_good demoI ⟨1, [demoP, demoF], 0⟩ 7 _ (legTimes 2 1 [demoP, demoF])
      (cart_exact 2 _ _ 7 rfl one_pos 1 one_pos _ [demoP, demoF] 0 (fun _ _ _ => .rfl) (by simp [demoP, demoF]) hleg hmiss) (by simp [legTimes])
    rw [e]
    simp [step, startMover, St.init, find, findOne, Dict.has, Dict.get?, Dict.set, hps]
  have := c43_cartesian_partial 2 (fun _ => ⟨0, 0, 0, false⟩) (fun _ => 1) 0 _ [.addSensor 7] demo0 rfl 1 7 1 one_pos demoP [demoF] (by simp)
    (by rw [e]; rfl) (by rw [e]; simp) (by rw [e]; intro p hp; simp [St.init] at hp) hok rfl one_pos (by simp [demoP, demoF]) hleg hmiss 6 hT
    (by rw [e]; exact hn) (by rw [e]; simp [St.init]) ops hops
  have hnow : demo0.now = 0 := by rw [e]; rfl
  have hview : decide (7 ∈ demo0.inView 1) = false := by rw [e]; rfl
  have htold : told demo0 1 7 = [] := by rw [e]; rfl
  rw [hnow, hview, htold, zero_add] at this
  exact this

/-! ### A leg that misses the sensor -/

/-- All times later by `δ`. -/
def later (δ : ℝ) (e : Entry ℝ) : Entry ℝ := ⟨e.kind, e.time + δ⟩

theorem absorb_later (base δ : ℝ) (acc es : List (Entry ℝ)) : absorb (base + δ) (acc.map (later δ)) es = (absorb base acc es).map (List.map (later δ)) := by
  fun_induction absorb base acc es with
  | case1 acc => simp [absorb]
  | case2 e es ih =>
    rw [← ih, List.map_nil, absorb, List.map_singleton]
    congr 2
    simp only [later]
    congr 1
    ring
  | case3 l acc e es hk he => simp [absorb, later, hk, he]
  | case4 l acc e es hk he ih =>
    rw [← ih, List.map_cons, absorb]
    simp [later, hk, he]
  | case5 l acc e es hk ih =>
    rw [← ih, List.map_cons, absorb, if_neg (show ¬ (later δ l).kind = .endInside from hk)]
    simp only [later, List.map_cons]
    congr 3
    ring

theorem scan_later {L : Type} (I : Inter ℝ L) (v t : ℝ) (s : Nat) (δ : ℝ) (ws : List L) (e : ℝ) (acc : List (Entry ℝ)) :
    scan I v (t + δ) s ws e (acc.map (later δ)) = (scan I v t s ws e acc).map (List.map (later δ)) := by
  induction ws generalizing e acc with
  | nil => simp [scan]
  | cons w ws ih =>
    cases ws with
    | nil => simp [scan]
    | cons w' ws =>
      simp only [scan]
      cases I w w' v s with
      | none => rfl
      | some res =>
        dsimp only
        rw [show t + δ + e = t + e + δ by ring, absorb_later]
        cases absorb (t + e) acc res.entries with
        | none => rfl
        | some acc' => exact ih _ _

theorem pairUp_later (δ : ℝ) (l : List (Entry ℝ)) : pairUp (l.map (later δ)) = (pairUp l).map (List.map fun p => (later δ p.1, later δ p.2)) := by
  fun_induction pairUp l with
  | case1 => rfl
  | case2 => rfl
  | case3 a b l ih =>
    simp only [List.map_cons, pairUp, ih]
    cases pairUp l <;> simp

/-- The same trip begun later by `δ` has the same crossings, later by `δ`. -/
theorem processPair_later {L : Type} (I : Inter ℝ L) (v t : ℝ) (s : Nat) (δ : ℝ) (ws : List L) :
    processPair I ⟨v, ws, t + δ⟩ s = (processPair I ⟨v, ws, t⟩ s).map (List.map fun p => (later δ p.1, later δ p.2)) := by
  have := scan_later I v t s δ ws 0 []
  simp only [List.map_nil] at this
  simp only [processPair, this]
  cases scan I v t s ws 0 [] with
  | none => rfl
  | some acc =>
    simp only [Option.map_some, ← List.map_reverse, pairUp_later]
    cases pairUp acc.reverse with
    | none => rfl
    | some ps =>
      simp only [Option.map_some]
      have : (ps.map fun p => (later δ p.1, later δ p.2)).all valid = ps.all valid := by
        rw [List.all_map]; rfl
      rw [this]
      split <;> rfl

/-- **C43 fails after a cartesian leg that misses the sensor**: all crossings of the rest of the path are computed too early, by the time
that this leg takes and one time unit more. -/
theorem c43_missed_leg_cartesian (k : ℝ) (place : Nat → Loc) (radius : Nat → ℝ) (s : Nat) (hs : (place s).altUnits = false) (hr : 0 < radius s) (v : ℝ) (hv : 0 < v)
    (a b : Loc) (ha : a.altUnits = false) (hb : b.altUnits = false) (ws : List Loc) (hok : LegOk k a b ((place s).place k) (radius s))
    (hm : Misses k a b ((place s).place k) (radius s)) (t : ℝ) (ps) (hps : processPair (cartI k place radius) ⟨v, a :: b :: ws, t⟩ s = some ps) :
    processPair (cartI k place radius) ⟨v, b :: ws, t + euclid (a.place k) (b.place k) / v⟩ s =
      some (ps.map fun p => (later (euclid (a.place k) (b.place k) / v + 1) p.1, later (euclid (a.place k) (b.place k) / v + 1) p.2)) := by
  obtain ⟨res, hres, hcase⟩ := c44_exact_partial k a b (place s) ha hb hs (radius s) v hr hv _ _ _ rfl rfl rfl hok.1 hok.2.1 hok.2.2 _ rfl
  rcases hcase with ⟨e1, e2, e3, hpt, _⟩ | ⟨X₁, X₂, t₁, t₂, _, _, _, h0, h12, hT, _, _, hw, _⟩
  · have hI : cartI k place radius a b v s = some ⟨[], -1⟩ := by simp [cartI, hres, e1, hpt]
    rw [c43_missed_leg _ v t s a b ws (-1) hI] at hps
    have := processPair_later (cartI k place radius) v (t + -1) s (euclid (a.place k) (b.place k) / v + 1) (b :: ws)
    rw [hps] at this
    rw [show t + euclid (a.place k) (b.place k) / v = t + -1 + (euclid (a.place k) (b.place k) / v + 1) by ring, this]
    rfl
  · exfalso
    obtain ⟨X, hX, hle⟩ := (hw t₁ h0 (h12.trans hT)).2 ⟨le_refl _, h12⟩
    exact absurd hle (not_le.2 (hm _ X hX))

/-- The hypotheses are met, for a first leg from (-3, 4, 0) to (-3, 0, 0). -/
example : LegOk 2 ⟨-3, 4, 0, false⟩ demoP ((⟨0, 0, 0, false⟩ : Loc).place 2) 1 ∧ Misses 2 ⟨-3, 4, 0, false⟩ demoP ((⟨0, 0, 0, false⟩ : Loc).place 2) 1 := by
  have hne : (⟨-3, 4, 0, false⟩ : Loc).place 2 ≠ demoP.place 2 := by
    intro h
    have := congrArg (fun v : V => v.2.1) h
    simp [demoP, Loc.place] at this
  refine ⟨⟨hne, fun h => ?_, fun h => ?_⟩, fun s X hX => ?_⟩
  · have h1 := h.1
    simp only [euclid, Loc.place] at h1
    rw [Real.sqrt_eq_one] at h1
    norm_num at h1
  · have h1 := h.1
    simp only [euclid, Loc.place, demoP] at h1
    rw [Real.sqrt_eq_one] at h1
    norm_num at h1
  · rw [at_segment _ _ hne _ _ hX]
    simp only [euclid, along, sub, Loc.place, demoP]
    rw [Real.lt_sqrt (by norm_num)]
    nlinarith [sq_nonneg (4 + s / √((-3 - -3) ^ 2 + (4 - 0) ^ 2 + (0 - 0) ^ 2) * (0 - 4) - 0 : ℝ)]

end Verif.Queued
