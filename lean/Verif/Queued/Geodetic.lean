import Verif.Queued.Restart
import Verif.Analytic.Props

/-! # C43 with the analytical intersection model on the spherical earth -/

namespace Verif.Queued

open Verif.Path Verif.Globe Verif.Analytic

/-- The kinds of crossings, as in the cartesian model (motion/motion.py 36-43). -/
def tagOf : Analytic.Kind → Verif.Sphere.Tag
  | .startInside => .startInside
  | .enter => .enter
  | .endInside => .endInside
  | .exit => .exit

/-- `analytical_intersection` as the intersection model of a manager (motion.py 225-237): the three lists are zipped. `k` is the number of metres
in a distance unit, `c` the number of distance units in an altitude unit, `place` and `radius` are those of the sensors. -/
noncomputable def geoI (k c : ℝ) (place : Nat → Geo) (radius : Nat → ℝ) : Inter ℝ Geo := fun w w' v s =>
  match intersection k c w w' v (place s) (radius s) with
  | .ok res => some ⟨res.crossings.map fun x => ⟨tagOf x.1, x.2.2⟩, res.pathTime⟩
  | .error _ => none

section General

variable {Q : Type}

/-- A distance, which may be zero between different points. -/
structure Metric (d : Q → Q → ℝ) : Prop where
  nonneg : ∀ a b, 0 ≤ d a b
  self : ∀ a, d a a = 0
  comm : ∀ a b, d a b = d b a
  triangle : ∀ a b c, d a c ≤ d a b + d b c

theorem Metric.zero {d : Q → Q → ℝ} (h : Metric d) {a b : Q} (hab : d a b = 0) (c : Q) : d c a = d c b ∧ d a c = d b c := by
  have h1 := h.triangle c b a
  have h2 := h.triangle c a b
  rw [h.comm b a, hab] at h1
  rw [hab] at h2
  have : d c a = d c b := le_antisymm (by linarith) (by linarith)
  exact ⟨this, by rw [h.comm, this, h.comm]⟩

theorem Metric.last {d : Q → Q → ℝ} (h : Metric d) (l : List Q) (q : Q) (hl : pathLen d q l = 0) : d (l.getLastD q) q = 0 := by
  induction l generalizing q with
  | nil => exact h.self q
  | cons b l ih =>
    simp only [pathLen] at hl
    have e1 := h.nonneg q b
    have e2 := pathLen_nonneg d h.nonneg b l
    have hqb : d q b = 0 := by linarith
    rw [List.getLastD_cons, ← (h.zero (by rw [h.comm]; exact hqb) _).1]
    exact ih b (by linarith)

theorem Metric.at_cons {d : Q → Q → ℝ} (h : Metric d) (p w : Q) (ws : List Q) (s : ℝ) (X : Q) (h1 : s ≤ d p w) :
    At d p (w :: ws) s X ↔ At d p [w] s X := by
  constructor
  · rintro ⟨pre, w', post, a, h0, rfl, g1, g2, g3, g4⟩
    cases pre with
    | nil =>
      simp only [List.nil_append, List.cons.injEq] at h0
      obtain ⟨rfl, -⟩ := h0
      exact ⟨[], w, [], p, rfl, rfl, g1, g2, g3, g4⟩
    | cons y pre =>
      simp only [List.cons_append, List.cons.injEq] at h0
      obtain ⟨rfl, -⟩ := h0
      simp only [pathLen] at g1 g2 g3
      have hnn := pathLen_nonneg d h.nonneg w pre
      have hz : pathLen d w pre = 0 := le_antisymm (by linarith) hnn
      have hs : s = d p w := le_antisymm h1 (by linarith)
      rw [List.getLastD_cons] at g3
      have hl := h.last pre w hz
      have hX : d w X = 0 := by
        rw [← (h.zero hl X).2, g3, hs, hz]; ring
      refine ⟨[], w, [], p, rfl, rfl, by simp [pathLen]; linarith [h.nonneg p w], by simp [pathLen]; exact h1, ?_, ?_⟩
      · simp only [pathLen]; rw [← (h.zero hX p).1, hs]; ring
      · show d X w = d p w - d p X
        rw [h.comm X w, hX, ← (h.zero hX p).1]; ring
  · rintro ⟨pre, w', post, a, h0, rfl, g1, g2, g3, g4⟩
    have hpre : pre = [] := by
      cases pre with
      | nil => rfl
      | cons x l => simp at h0
    subst hpre
    simp only [List.nil_append, List.cons.injEq] at h0
    obtain ⟨rfl, -⟩ := h0
    exact ⟨[], w, ws, p, rfl, rfl, g1, g2, g3, g4⟩

theorem Metric.at_rest {d : Q → Q → ℝ} (h : Metric d) (p w : Q) (ws : List Q) (hne : ws ≠ []) (s : ℝ) (X : Q) (h1 : d p w ≤ s) :
    At d p (w :: ws) s X ↔ At d w ws (s - d p w) X := by
  constructor
  · rintro ⟨pre, w', post, a, h0, rfl, g1, g2, g3, g4⟩
    cases pre with
    | nil =>
      simp only [List.nil_append, List.cons.injEq] at h0
      obtain ⟨rfl, rfl⟩ := h0
      simp only [pathLen, List.getLastD_nil] at g1 g2 g3 g4
      have hs : s = d p w := by linarith
      have hX : d X w = 0 := by rw [g4, g3, hs]; ring
      obtain ⟨y, ys, rfl⟩ := List.exists_cons_of_ne_nil hne
      refine ⟨[], y, ys, w, rfl, rfl, ?_, ?_, ?_, ?_⟩
      · simp only [pathLen, hs]; linarith
      · simp only [pathLen, hs]; have := h.nonneg w y; linarith
      · simp only [pathLen, hs]; rw [h.comm, hX]; ring
      · rw [h.comm w X, hX, (h.zero hX y).2]; ring
    | cons y pre =>
      simp only [List.cons_append, List.cons.injEq] at h0
      obtain ⟨rfl, rfl⟩ := h0
      simp only [pathLen, List.getLastD_cons] at g1 g2 g3 g4
      exact ⟨pre, w', post, _, rfl, rfl, by linarith, by linarith, by rw [g3]; ring, g4⟩
  · intro h
    have := At.later (p := p) (pre := []) h
    simpa [pathLen] using this

theorem at_single_range {d : Q → Q → ℝ} {p w : Q} {s : ℝ} {X : Q} (h : At d p [w] s X) : 0 ≤ s ∧ s ≤ d p w := by
  obtain ⟨pre, w', post, a, g0, rfl, g1, g2, -, -⟩ := h
  cases pre with
  | nil =>
    simp only [List.nil_append, List.cons.injEq] at g0
    obtain ⟨rfl, -⟩ := g0
    simpa [pathLen] using And.intro g1 g2
  | cons y l => simp at g0

end General

theorem arc_metric (k : ℝ) (hk : 0 < k) : Metric (arcLen k) := by
  have h := spherical_fits k hk
  rw [← spherical_dist k]
  exact ⟨h.nonneg, h.self, h.symm, h.triangle⟩

/-- A mover going along `ls` (start and waypoints) on great circles, from time `x` with speed `v`, is within `r` of `c` at time `τ`, over ground. -/
def InReach (k : ℝ) (ls : List Geo) (v : ℝ) (c : LL) (r : ℝ) (x τ : ℝ) : Prop :=
  match ls with
  | [] => False
  | p :: ws => ∃ X, At (arcLen k) p.ll (ws.map Geo.ll) (v * (τ - x)) X ∧ arcLen k X c ≤ r

/-- The leg from `a` to `b` is never within `r` of `c`. -/
def Passes (k : ℝ) (a b : Geo) (c : LL) (r : ℝ) : Prop := ∀ s X, At (arcLen k) a.ll [b.ll] s X → r < arcLen k X c

/-- The legs for which the analytical crossings are right (`c63_exact_partial`): at altitude zero, fair, not beginning or ending on the boundary of the
range, and not merely touching it. -/
structure LegFair (k : ℝ) (a b : Geo) (c : LL) (r : ℝ) : Prop where
  low : a.alt = 0 ∧ b.alt = 0
  fair : Fair k a.ll b.ll c r
  start : arcLen k a.ll c ≠ r
  finish : arcLen k b.ll c ≠ r
  touch : ∀ s X, At (arcLen k) a.ll [b.ll] s X → arcLen k X c ≤ r → ∃ s Y, At (arcLen k) a.ll [b.ll] s Y ∧ arcLen k Y c < r

/-- The times of the legs. -/
noncomputable def arcTimes (k v : ℝ) : List Geo → List ℝ
  | a :: b :: l => arcLen k a.ll b.ll / v :: arcTimes k v (b :: l)
  | _ => []

theorem sum_arcTimes (k v : ℝ) (p : Geo) (ws : List Geo) : (arcTimes k v (p :: ws)).sum = pathLen (arcLen k) p.ll (ws.map Geo.ll) / v := by
  induction ws generalizing p with
  | nil => simp [arcTimes, pathLen]
  | cons w ws ih => simp only [arcTimes, List.sum_cons, ih, List.map_cons, pathLen]; ring

theorem arcTimes_nonneg (k : ℝ) (hk : 0 < k) (v : ℝ) (hv : 0 < v) (ls : List Geo) : 0 ≤ (arcTimes k v ls).sum := by
  cases ls with
  | nil => simp [arcTimes]
  | cons p ws => rw [sum_arcTimes]; exact div_nonneg (pathLen_nonneg _ (arc_metric k hk).nonneg _ _) hv.le

/-- What is computed for a leg. -/
theorem leg_exact (k c : ℝ) (hk : 0 < k) (place : Nat → Geo) (radius : Nat → ℝ) (s : Nat) (v : ℝ) (hv : 0 < v) (a b : Geo)
    (hF : LegFair k a b (place s).ll (radius s)) :
    ∃ res, geoI k c place radius a b v s = some res ∧
      ((res.entries = [] ∧ Passes k a b (place s).ll (radius s)) ∨
      ∃ k₁ k₂ t₁ t₂, res.entries = [⟨k₁, t₁⟩, ⟨k₂, t₂⟩] ∧ res.pathTime = arcLen k a.ll b.ll / v ∧ 0 ≤ t₁ ∧ t₁ < t₂ ∧ t₂ ≤ arcLen k a.ll b.ll / v ∧
        (∀ t, 0 ≤ t → t ≤ arcLen k a.ll b.ll / v →
          ((∃ X, At (arcLen k) a.ll [b.ll] (v * t) X ∧ arcLen k X (place s).ll ≤ radius s) ↔ t₁ ≤ t ∧ t ≤ t₂)) ∧
        (arcLen k a.ll (place s).ll ≤ radius s ∧ k₁ = .startInside ∨ ¬ arcLen k a.ll (place s).ll ≤ radius s ∧ k₁ = .enter) ∧
        (arcLen k b.ll (place s).ll ≤ radius s ∧ k₂ = .endInside ∨ ¬ arcLen k b.ll (place s).ll ≤ radius s ∧ k₂ = .exit)) := by
  obtain ⟨⟨ha, hb⟩, hf, hst, hfi, hto⟩ := hF
  obtain ⟨res, hres, hcase⟩ := c63_exact_partial k c hk a b (place s) v (radius s) hv ha hb hf (by rintro (h | h); exacts [absurd h hst, absurd h hfi])
  refine ⟨⟨res.crossings.map fun x => ⟨tagOf x.1, x.2.2⟩, res.pathTime⟩, by simp [geoI, hres], ?_⟩
  rcases hcase with ⟨h1, h2⟩ | ⟨k1, X1, t1, k2, X2, t2, h1, h2, h3, h4, h5, a1, a2, -, -, hw, hk1, hk2⟩
  · refine .inl ⟨by simp [h1], fun t X hX => ?_⟩
    by_contra hc
    obtain ⟨t', Y, hY, hlt⟩ := hto t X hX (not_lt.1 hc)
    exact absurd hlt (not_lt.2 (h2 t' Y hY))
  · have hD : 0 < arcLen k a.ll b.ll := hf.moves
    refine .inr ⟨tagOf k1, tagOf k2, t1, t2, by simp [h1], h2, h3, h4, h5, fun t g0 g1 => ?_, ?_, ?_⟩
    · constructor
      · rintro ⟨X, hX, hle⟩; exact (hw t X hX).1 hle
      · intro hle
        have hvt : v * t ≤ arcLen k a.ll b.ll := by rw [le_div_iff₀ hv] at g1; linarith
        obtain ⟨X, hX⟩ : ∃ X, At (arcLen k) a.ll [b.ll] (v * t) X := by
          refine ⟨pointFrom k a.ll (bearing a.ll b.ll) (v * t), (hf.at_iff hk _ _).2 ⟨⟨by positivity, hvt⟩, ?_⟩⟩
          exact c60_destination_partial k a.ll hf.start _ _
        exact ⟨X, hX, (hw t X hX).2 hle⟩
    · have h0 := hw 0 a.ll (by rw [mul_zero]; exact hf.at_start hk)
      rcases hk1 with ⟨rfl, -, hlt⟩ | ⟨rfl, heq⟩
      · exact .inl ⟨hlt.le, rfl⟩
      · refine .inr ⟨fun hle => ?_, rfl⟩
        have ht : t1 = 0 := le_antisymm (h0.1 hle).1 h3
        rw [ht, mul_zero] at a1
        have e := ((hf.at_iff hk _ _).1 a1).2
        have e' := ((hf.at_iff hk _ _).1 (hf.at_start hk)).2
        apply hst
        rw [← heq]
        unfold arcLen; rw [e, ← e']
    · have h0 := hw (arcLen k a.ll b.ll / v) b.ll (by rw [mul_div_cancel₀ _ hv.ne']; exact hf.at_finish hk)
      rcases hk2 with ⟨rfl, -, hlt⟩ | ⟨rfl, heq⟩
      · exact .inl ⟨hlt.le, rfl⟩
      · refine .inr ⟨fun hle => ?_, rfl⟩
        have ht : t2 = arcLen k a.ll b.ll / v := le_antisymm h5 (h0.1 hle).2
        rw [ht, mul_div_cancel₀ _ hv.ne'] at a2
        have e := ((hf.at_iff hk _ _).1 a2).2
        have e' := ((hf.at_iff hk _ _).1 (hf.at_finish hk)).2
        apply hfi
        rw [← heq]
        unfold arcLen; rw [e, ← e']

/-- In range during the first leg, and after it. -/
theorem reach_first (k : ℝ) (hk : 0 < k) (p f : Geo) (ws : List Geo) (v : ℝ) (hv : 0 < v) (c : LL) (r x τ : ℝ) (h2 : τ ≤ x + arcLen k p.ll f.ll / v) :
    InReach k (p :: f :: ws) v c r x τ ↔ ∃ X, At (arcLen k) p.ll [f.ll] (v * (τ - x)) X ∧ arcLen k X c ≤ r := by
  have hle : v * (τ - x) ≤ arcLen k p.ll f.ll := by
    have : τ - x ≤ arcLen k p.ll f.ll / v := by linarith
    rw [le_div_iff₀ hv] at this; linarith
  simp only [InReach, List.map_cons, (arc_metric k hk).at_cons _ _ _ _ _ hle]

theorem reach_rest (k : ℝ) (hk : 0 < k) (p f w : Geo) (ws : List Geo) (v : ℝ) (hv : 0 < v) (c : LL) (r x τ : ℝ) (h1 : x + arcLen k p.ll f.ll / v ≤ τ) :
    InReach k (p :: f :: w :: ws) v c r x τ ↔ InReach k (f :: w :: ws) v c r (x + arcLen k p.ll f.ll / v) τ := by
  have hge : arcLen k p.ll f.ll ≤ v * (τ - x) := by
    have : arcLen k p.ll f.ll / v ≤ τ - x := by linarith
    rw [div_le_iff₀ hv] at this; linarith
  have heq : v * (τ - (x + arcLen k p.ll f.ll / v)) = v * (τ - x) - arcLen k p.ll f.ll := by field_simp; ring
  simp only [InReach, List.map_cons, heq]
  have := (arc_metric k hk).at_rest p.ll f.ll ((w :: ws).map Geo.ll) (by simp) (v * (τ - x))
  simp only [List.map_cons] at this
  simp only [this _ hge]

/-- **The analytical model is exact** on a path at altitude zero of fair legs on which, after a leg that misses the sensor, the mover does not get in
range any more. -/
theorem geo_exact (k c : ℝ) (hk : 0 < k) (place : Nat → Geo) (radius : Nat → ℝ) (s : Nat) (v : ℝ) (hv : 0 < v)
    (inside : ℝ → Prop) : ∀ (ls : List Geo) (x : ℝ),
    (∀ τ, x ≤ τ → τ ≤ x + (arcTimes k v ls).sum → (inside τ ↔ InReach k ls v (place s).ll (radius s) x τ)) →
    (∀ pre a b post, ls = pre ++ a :: b :: post → LegFair k a b (place s).ll (radius s)) →
    (∀ pre a b post, ls = pre ++ a :: b :: post → Passes k a b (place s).ll (radius s) →
      ∀ t X, At (arcLen k) b.ll (post.map Geo.ll) t X → radius s < arcLen k X (place s).ll) →
    ExactPath (geoI k c place radius) v s inside ls (arcTimes k v ls) x := by
  intro ls
  induction ls with
  | nil => intro x _ _ _; trivial
  | cons p ws ih =>
    intro x hin hleg hmiss
    cases ws with
    | nil => trivial
    | cons f ws =>
      have hF := hleg [] p f ws rfl
      have hD : 0 < arcLen k p.ll f.ll := hF.fair.moves
      have hD' : 0 < arcLen k p.ll f.ll / v := div_pos hD hv
      have hrest := arcTimes_nonneg k hk v hv (f :: ws)
      have hsum : (arcTimes k v (p :: f :: ws)).sum = arcLen k p.ll f.ll / v + (arcTimes k v (f :: ws)).sum := by simp [arcTimes]
      rw [hsum] at hin
      obtain ⟨res, hres, hcase⟩ := leg_exact k c hk place radius s v hv p f hF
      have hleg1 : ∀ τ, x ≤ τ → τ ≤ x + arcLen k p.ll f.ll / v →
          (inside τ ↔ ∃ X, At (arcLen k) p.ll [f.ll] (v * (τ - x)) X ∧ arcLen k X (place s).ll ≤ radius s) := by
        intro τ h1 h2
        rw [hin τ h1 (by linarith), reach_first k hk p f ws v hv _ _ x τ h2]
      have uniq : ∀ (t : ℝ) (X Y : LL), At (arcLen k) p.ll [f.ll] t X → At (arcLen k) p.ll [f.ll] t Y → arcLen k X (place s).ll = arcLen k Y (place s).ll := by
        intro t X Y hX hY
        have e := ((hF.fair.at_iff hk _ _).1 hX).2
        have e' := ((hF.fair.at_iff hk _ _).1 hY).2
        unfold arcLen; rw [e, ← e']
      refine ⟨hD'.le, res, hres, ?_, ?_, ?_⟩
      · rcases hcase with ⟨he, hno⟩ | ⟨k₁, k₂, t₁, t₂, he, hp, h0, h12, hT, hw, hk1, hk2⟩
        · refine .inl ⟨he, fun τ h1 h2 hc => ?_⟩
          obtain ⟨X, hX, hle⟩ := (hleg1 τ h1 h2).1 hc
          exact absurd hle (not_le.2 (hno _ X hX))
        · have hends : (inside x ↔ arcLen k p.ll (place s).ll ≤ radius s) ∧ (inside (x + arcLen k p.ll f.ll / v) ↔ arcLen k f.ll (place s).ll ≤ radius s) := by
            constructor
            · rw [hleg1 x (le_refl _) (by linarith), sub_self, mul_zero]
              constructor
              · rintro ⟨X, hX, hle⟩; rwa [uniq _ _ _ hX (hF.fair.at_start hk)] at hle
              · intro h; exact ⟨_, hF.fair.at_start hk, h⟩
            · rw [hleg1 _ (by linarith) (le_refl _), add_sub_cancel_left, mul_div_cancel₀ _ hv.ne']
              constructor
              · rintro ⟨X, hX, hle⟩; rwa [uniq _ _ _ hX (hF.fair.at_finish hk)] at hle
              · intro h; exact ⟨_, hF.fair.at_finish hk, h⟩
          refine .inr ⟨k₁, k₂, t₁, t₂, he, h0, h12.le, hT, fun τ h1 h2 => ?_, ?_, ?_⟩
          · rw [hleg1 τ h1 h2, hw _ (by linarith) (by linarith)]
            constructor
            · exact fun h => ⟨by linarith [h.1], by linarith [h.2]⟩
            · exact fun h => ⟨by linarith [h.1], by linarith [h.2]⟩
          · rw [hends.1]; exact hk1
          · rw [hends.2]; exact hk2
      · rcases hcase with ⟨he, hno⟩ | ⟨k₁, k₂, t₁, t₂, he, hp, -⟩
        · right
          intro τ h1 h2 hins
          rw [hin τ h1 h2] at hins
          obtain ⟨X, hX, hle⟩ := hins
          rw [List.map_cons] at hX
          by_cases hcmp : v * (τ - x) ≤ arcLen k p.ll f.ll
          · exact absurd hle (not_le.2 (hno _ X (((arc_metric k hk).at_cons _ _ _ _ _ hcmp).1 hX)))
          · by_cases hws : ws = []
            · subst hws
              simp only [arcTimes, List.sum_nil, add_zero] at h2
              have : τ - x ≤ arcLen k p.ll f.ll / v := by linarith
              rw [le_div_iff₀ hv] at this
              exact hcmp (by linarith)
            · have := hmiss [] p f ws rfl hno _ X (((arc_metric k hk).at_rest _ _ _ (by simpa using hws) _ _ (not_le.1 hcmp).le).1 hX)
              linarith
        · exact .inl hp
      · cases ws with
        | nil => trivial
        | cons w ws =>
          refine ih _ (fun τ h1 h2 => ?_) (fun pre a b post h => hleg (p :: pre) a b post (by rw [h]; rfl))
            (fun pre a b post h => hmiss (p :: pre) a b post (by rw [h]; rfl))
          rw [hin τ (by linarith) (by linarith), reach_rest k hk p f w ws v hv _ _ x τ h1]

/-- On such a path the range is never merely touched. -/
theorem geo_noTouch (k : ℝ) (hk : 0 < k) (place : Nat → Geo) (radius : Nat → ℝ) (s : Nat) (v : ℝ) (hv : 0 < v) : ∀ (ls : List Geo) (x : ℝ),
    (∀ pre a b post, ls = pre ++ a :: b :: post → LegFair k a b (place s).ll (radius s)) →
    NoTouch (InReach k ls v (place s).ll (radius s) x) x (x + (arcTimes k v ls).sum) := by
  intro ls
  induction ls with
  | nil => intro x _ τ h1 h2; simp [arcTimes] at h2; linarith
  | cons p ws ih =>
    intro x hleg
    cases ws with
    | nil => intro τ h1 h2; simp [arcTimes] at h2; linarith
    | cons f ws =>
      have hF := hleg [] p f ws rfl
      have hD : 0 < arcLen k p.ll f.ll := hF.fair.moves
      have hD' : 0 < arcLen k p.ll f.ll / v := div_pos hD hv
      have hrest := arcTimes_nonneg k hk v hv (f :: ws)
      have hsum : (arcTimes k v (p :: f :: ws)).sum = arcLen k p.ll f.ll / v + (arcTimes k v (f :: ws)).sum := by simp [arcTimes]
      rw [hsum]
      set T := arcLen k p.ll f.ll / v with hT'
      rintro τ h1 h2 hin ⟨ε, hε, hiso⟩
      rcases lt_or_ge τ (x + T) with hτ | hτ
      · -- during the first leg
        rw [reach_first k hk p f ws v hv _ _ x τ hτ.le] at hin
        obtain ⟨res, -, hcase⟩ := leg_exact k 1 hk place radius s v hv p f hF
        rcases hcase with ⟨-, hno⟩ | ⟨k₁, k₂, t₁, t₂, -, -, h0, h12, hT, hw, -⟩
        · obtain ⟨X, hX, hle⟩ := hin
          exact absurd hle (not_le.2 (hno _ X hX))
        · have hb := (hw (τ - x) (by linarith) (by linarith)).1 hin
          -- a time near `τ` at which the mover is in range
          obtain ⟨y, hy1, hy2, hy3, hy4⟩ : ∃ y, t₁ ≤ y ∧ y ≤ t₂ ∧ y ≠ τ - x ∧ |y - (τ - x)| < ε := by
            rcases lt_or_ge (τ - x) t₂ with h | h
            · refine ⟨min t₂ (τ - x + ε / 2), le_min h12.le (by linarith), min_le_left _ _, ?_, ?_⟩
              · exact (lt_min h (by linarith)).ne'
              · rw [abs_of_nonneg (sub_nonneg.2 (le_min h.le (by linarith)))]
                have := min_le_right t₂ (τ - x + ε / 2)
                linarith
            · have he : τ - x = t₂ := le_antisymm hb.2 h
              refine ⟨max t₁ (τ - x - ε / 2), le_max_left _ _, max_le h12.le (by linarith), ?_, ?_⟩
              · exact (max_lt (by linarith) (by linarith)).ne
              · rw [abs_of_nonpos (sub_nonpos.2 (max_le hb.1 (by linarith)))]
                have := le_max_right t₁ (τ - x - ε / 2)
                linarith
          rw [abs_lt] at hy4
          refine hiso (x + y) (by linarith) (by linarith) (by linarith) (by linarith) (fun h => hy3 (by linarith)) ?_
          rw [reach_first k hk p f ws v hv _ _ x (x + y) (by linarith)]
          exact (hw _ (by linarith) (by linarith)).2 ⟨by linarith, by linarith⟩
      · cases ws with
        | nil => simp [arcTimes] at h2; linarith
        | cons w ws =>
          rw [reach_rest k hk p f w ws v hv _ _ x τ hτ] at hin
          refine ih (x + T) (fun pre a b post h => hleg (p :: pre) a b post (by rw [h]; rfl)) τ hτ (by linarith) hin ⟨ε, hε, fun y g1 g2 g3 g4 g5 hc => ?_⟩
          refine hiso y (by linarith) (by linarith) g3 g4 g5 ?_
          rwa [reach_rest k hk p f w ws v hv _ _ x y g1]

/-- **C43 on the spherical earth, with the analytical model.** A detectable mover starts at `p` with speed `v` along `ws`, at altitude zero. If the legs
are fair and after a leg that misses the sensor the mover does not get in range any more, then whatever else happens, at any time the sensor
has been told exactly of the entries and exits up to now: when the distance over ground of the point at path length `v · (τ - start)` from the
sensor becomes at most the radius, and when it becomes larger. Missing: other altitudes, unfair legs (see C63), and paths that get in range after
such a leg. -/
theorem c43_analytic_partial (k c : ℝ) (hk : 0 < k) (place : Nat → Geo) (radius : Nat → ℝ) (t0 : ℝ) (det : Nat → Option Bool) (ops₀ : List (Op ℝ Geo)) (σ : St ℝ Geo)
    (hσ : σ = run (geoI k c place radius) (St.init t0 det) ops₀) (m s : Nat) (v : ℝ) (hv : 0 < v) (p : Geo) (ws : List Geo) (hws : ws ≠ [])
    (hdet : σ.detect m = some true) (hs : s ∈ σ.sensors) (hq : Dead σ m s) (hok : (step (geoI k c place radius) σ (.start m v (p :: ws))).2 = .ok)
    (hleg : ∀ pre a b post, p :: ws = pre ++ a :: b :: post → LegFair k a b (place s).ll (radius s))
    (hmiss : ∀ pre a b post, p :: ws = pre ++ a :: b :: post → Passes k a b (place s).ll (radius s) →
      ∀ t X, At (arcLen k) b.ll (post.map Geo.ll) t X → radius s < arcLen k X (place s).ll)
    (T : ℝ) (hT : T = pathLen (arcLen k) p.ll (ws.map Geo.ll) / v)
    (hwas : s ∈ σ.inView m → arcLen k p.ll (place s).ll ≤ radius s)
    (ops : List (Op ℝ Geo)) (hops : ∀ o ∈ ops, Foreign m s o) :
    Served m s (InReach k (p :: ws) v (place s).ll (radius s) σ.now) σ.now (σ.now + T) (decide (s ∈ σ.inView m)) (told σ m s)
      (run (geoI k c place radius) (step (geoI k c place radius) σ (.start m v (p :: ws))).1 ops) := by
  obtain ⟨f, ws', rfl⟩ := List.exists_cons_of_ne_nil hws
  rw [hT, ← sum_arcTimes]
  have hF := (hleg [] p f ws' rfl).fair
  refine c43_restart_partial (geoI k c place radius) t0 det ops₀ σ hσ m s v (p :: f :: ws') hdet hs hq hok _ (arcTimes k v (p :: f :: ws')) (by simp [arcTimes])
    (geo_exact k c hk place radius s v hv _ _ _ (fun _ _ _ => .rfl) hleg hmiss) (geo_noTouch k hk place radius s v hv _ _ hleg)
    (fun h => ⟨?_, arcTimes_nonneg k hk v hv _⟩) ops hops
  refine ⟨p.ll, ?_, hwas h⟩
  rw [sub_self, mul_zero, List.map_cons, (arc_metric k hk).at_cons _ _ _ _ _ hF.moves.le]
  exact hF.at_start hk

/-! The hypotheses are met: along the equator from (0, 0) to (0, 90), in a time of a quarter turn, with a sensor at (0, 45) that sees 10 degrees far. -/

noncomputable def eastI : Inter ℝ Geo := geoI 1 1 (fun _ => east45) fun _ => R * (10 * Real.pi / 180)
noncomputable def eastS : St ℝ Geo := run eastI (St.init 0 fun _ => some true) [.addSensor 7]

theorem east_ll : east0.ll = (0, 0) ∧ east90.ll = (0, 90) ∧ east45.ll = (0, 45) := by simp [east0, east90, east45, Geo.ll]

theorem east_leg : LegFair 1 east0 east90 east45.ll (R * (10 * Real.pi / 180)) := by
  have hR := R_pos
  have hpi := Real.pi_pos
  obtain ⟨e0, e1, e2⟩ := east_ll
  rw [e2]
  refine ⟨⟨rfl, rfl⟩, by rw [e0, e1]; exact fair_east, ?_, ?_, fun _ _ _ _ => ⟨_, _, by rw [e0, e1]; exact east_at 45 (by norm_num) (by norm_num), ?_⟩⟩
  · rw [e0, east_len 0 45 (by norm_num) (by norm_num)]
    intro h; nlinarith [mul_pos hR hpi]
  · rw [e1, arcLen_comm, east_len 45 90 (by norm_num) (by norm_num)]
    intro h; nlinarith [mul_pos hR hpi]
  · rw [east_len 45 45 le_rfl (by norm_num)]
    nlinarith [mul_pos hR hpi]

theorem east_split (pre : List Geo) (a b : Geo) (post : List Geo) (h : [east0, east90] = pre ++ a :: b :: post) : a = east0 ∧ b = east90 ∧ post = [] := by
  match pre, h with
  | [], h => simp at h; exact ⟨h.1.symm, h.2.1.symm, h.2.2⟩
  | [_], h => simp at h
  | _ :: _ :: _, h => simp at h

theorem east_legs (pre : List Geo) (a b : Geo) (post : List Geo) (h : [east0, east90] = pre ++ a :: b :: post) :
    LegFair 1 a b east45.ll (R * (10 * Real.pi / 180)) := by
  obtain ⟨rfl, rfl, -⟩ := east_split pre a b post h
  exact east_leg

theorem east_miss (pre : List Geo) (a b : Geo) (post : List Geo) (h : [east0, east90] = pre ++ a :: b :: post)
    (_ : Passes 1 a b east45.ll (R * (10 * Real.pi / 180))) (t : ℝ) (X : LL) (hX : At (arcLen 1) b.ll (post.map Geo.ll) t X) :
    R * (10 * Real.pi / 180) < arcLen 1 X east45.ll := by
  obtain ⟨-, -, rfl⟩ := east_split pre a b post h
  obtain ⟨_, _, _, _, hc, -⟩ := hX
  simp at hc

example (ops : List (Op ℝ Geo)) (hops : ∀ o ∈ ops, Foreign 1 7 o) :
    Served 1 7 (InReach 1 [east0, east90] R (0, 45) (R * (10 * Real.pi / 180)) 0) 0 (Real.pi / 2) false []
      (run eastI (step eastI eastS (.start 1 R [east0, east90])).1 ops) := by
  have hR := R_pos
  have hpi := Real.pi_pos
  obtain ⟨e0, e1, e2⟩ := east_ll
  have e : eastS = { (St.init 0 fun _ => some true : St ℝ Geo) with sensors := [7] } := by simp [eastS, run, step, addSensor, find, St.init, Dict.keys]
  have hok : (step eastI eastS (.start 1 R [east0, east90])).2 = .ok := by
    obtain ⟨ps, hps, -⟩ := processPair_good eastI ⟨R, [east0, east90], 0⟩ 7 _ (arcTimes 1 R [east0, east90])
      (geo_exact 1 1 one_pos _ _ 7 R hR _ [east0, east90] 0 (fun _ _ _ => .rfl) east_legs east_miss) (by simp [arcTimes])
    rw [e]
    simp [step, startMover, St.init, find, findOne, Dict.has, Dict.get?, Dict.set, hps]
  have hT : Real.pi / 2 = pathLen (arcLen 1) east0.ll ([east90].map Geo.ll) / R := by
    simp only [List.map_cons, List.map_nil, pathLen, e0, e1, east_len 0 90 (by norm_num) (by norm_num), add_zero]
    field_simp; norm_num
  have := c43_analytic_partial 1 1 one_pos (fun _ => east45) (fun _ => R * (10 * Real.pi / 180)) 0 _ [.addSensor 7] eastS rfl 1 7 R hR east0 [east90] (by simp)
    (by rw [e]; rfl) (by rw [e]; simp) (by rw [e]; intro p hp; simp [St.init] at hp) hok east_legs east_miss (Real.pi / 2) hT
    (by rw [e]; simp [St.init]) ops hops
  have hnow : eastS.now = 0 := by rw [e]; rfl
  have hview : decide (7 ∈ eastS.inView 1) = false := by rw [e]; rfl
  have htold : told eastS 1 7 = [] := by rw [e]; rfl
  rw [hnow, hview, htold, zero_add, e2] at this
  exact this

end Verif.Queued
