import Verif.Queued.Source
import Verif.Queued.Cex
import Verif.Subdiv.Answers
import Verif.Subdiv.WgsTimes
import Verif.Subdiv.WgsEquator

/-! # C43 with the numerical intersection models on the spherical earth and on the WGS84 ellipsoid -/

namespace Verif.Queued

open Verif.Path Verif.Globe Verif.Subdiv Real
open Verif.Sphere (Tag)

/-- The kinds of crossings as the manager reads them (motion/motion.py 23-28, 240-252); every kind that occurs in no valid pair is `bad`. -/
def kindOf : Crossing.Kind → Tag
  | .startInside => .startInside
  | .enter => .enter
  | .endInside => .endInside
  | .exit => .exit
  | .startOut => .bad
  | .endOut => .bad

theorem kindOf_enter {x : Crossing.Kind} (h : kindOf x = .enter) : x = .enter := by cases x <;> simp_all [kindOf]
theorem kindOf_exit {x : Crossing.Kind} (h : kindOf x = .exit) : x = .exit := by cases x <;> simp_all [kindOf]
theorem kindOf_start {x : Crossing.Kind} (h : kindOf x = .startInside) : x = .startInside := by cases x <;> simp_all [kindOf]

/-- The three lists zipped and the travel time (motion.py 225-237). -/
def legOf : Except Crossing.Err Answer → Option (LegRes ℝ)
  | .ok .bad => some ⟨[], 0⟩
  | .ok (.hits l pt) => some ⟨l.map fun x => ⟨kindOf x.kind, x.time⟩, pt⟩
  | .error _ => none

/-- `subdivide_intersection` as the intersection model of a manager (motion.py 225-231, motion/geodetic_model.py 36-95), with the spherical earth as the model of the stage. -/
noncomputable def subI (k ka : ℝ) (place : Nat → Geo) (radius : Nat → ℝ) : Inter ℝ Geo := fun w w' v s => legOf (subdivide k ka w w' v (place s) (radius s))

/-- The same with the WGS84 ellipsoid as the model of the stage. -/
noncomputable def subI84 (k ka : ℝ) (place : Nat → Geo) (radius : Nat → ℝ) : Inter ℝ Geo := fun w w' v s => legOf (Wgs84.subdivide k ka w w' v (place s) (radius s))

theorem legOf_some {a : Except Crossing.Err Answer} {res : LegRes ℝ} (h : legOf a = some res) {c : Entry ℝ} (hc : c ∈ res.entries) :
    ∃ l pt x, a = .ok (.hits l pt) ∧ x ∈ l ∧ c = ⟨kindOf x.kind, x.time⟩ ∧ res.pathTime = pt := by
  match a, h with
  | .ok .bad, h => simp only [legOf, Option.some.injEq] at h; subst h; cases hc
  | .ok (.hits l pt), h =>
    simp only [legOf, Option.some.injEq] at h
    subst h
    obtain ⟨x, hx, rfl⟩ := List.mem_map.1 hc
    exact ⟨l, pt, x, rfl, hx, rfl, rfl⟩
  | .error _, h => simp [legOf] at h

/-- The time a mover takes over the legs of a path on great circles. -/
noncomputable def wayTime (k v : ℝ) : List Geo → ℝ
  | a :: b :: l => R * angleOf a b / (k * v) + wayTime k v (b :: l)
  | _ => 0

theorem took_bounds {k ka v : ℝ} (hk : 0 < k) (hka : 0 < ka) (hv : 0 < v) (place : Nat → Geo) (radius : Nat → ℝ) (s : Nat) (l : List Geo)
    (hC : ∀ pre a b post, l = pre ++ a :: b :: post → angleOf a b ≤ π - 1 / 10 ^ 6) :
    0 ≤ took (subI k ka place radius) v s l ∧ took (subI k ka place radius) v s l ≤ wayTime k v l ∧
      ((∀ pre a b post, l = pre ++ a :: b :: post → ∃ h pt, subdivide k ka a b v (place s) (radius s) = .ok (.hits h pt)) →
        took (subI k ka place radius) v s l = wayTime k v l) := by
  induction l with
  | nil => simp [took, wayTime]
  | cons a l ih =>
    cases l with
    | nil => simp [took, wayTime]
    | cons b l =>
      obtain ⟨h1, h2, h3⟩ := ih fun pre x y post h => hC (a :: pre) x y post (by rw [h]; rfl)
      have hR := R_pos
      have hnn : 0 ≤ R * angleOf a b / (k * v) := by
        have := InnerProductGeometry.angle_nonneg (spot a) (spot b)
        unfold angleOf; positivity
      have key : ∃ q, took (subI k ka place radius) v s (a :: b :: l) = q + took (subI k ka place radius) v s (b :: l) ∧ (q = 0 ∨ q = R * angleOf a b / (k * v)) ∧
          ((∃ h pt, subdivide k ka a b v (place s) (radius s) = .ok (.hits h pt)) → q = R * angleOf a b / (k * v)) := by
        simp only [took, subI]
        rcases hs : subdivide k ka a b v (place s) (radius s) with e | ans
        · exact ⟨0, by simp [legOf], .inl rfl, by rintro ⟨_, _, h⟩; cases h⟩
        · cases ans with
          | bad => exact ⟨0, by simp [legOf], .inl rfl, by rintro ⟨_, _, h⟩; cases h⟩
          | hits l' pt =>
            have := (c72_hits hk hka hv (hC [] a b l rfl) hs).2.1
            exact ⟨pt, by simp [legOf], .inr this, fun _ => this⟩
      obtain ⟨q, e1, e2, e3⟩ := key
      refine ⟨?_, ?_, fun hall => ?_⟩
      · rw [e1]; rcases e2 with rfl | rfl <;> linarith
      · rw [e1]; simp only [wayTime]; rcases e2 with rfl | rfl <;> linarith
      · rw [e1, e3 (hall [] a b l rfl), h3 fun pre x y post h => hall (a :: pre) x y post (by rw [h]; rfl)]
        rfl

/-- **C43 with the numerical model on the spherical earth, along a path.** Everything a sensor is told of a mover is a crossing of a leg `a`, `b` of its path that is right in the sense of
C72: the location is on the leg, in range, and the range begins or ends within 46.4 m. An entry is told for an ENTER or a START_INSIDE, an exit for an EXIT. It is told no later than the
mover is there; and at that very time if the crossing is not a START_INSIDE and no leg before has been answered with "Bad". Missing: the time of the others (a leg answered with
"Bad" counts as no time, see `c43_missed_leg`; a START_INSIDE is told at once, whatever the leg). -/
theorem c43_sampled_path_partial {k ka v : ℝ} (hk : 0 < k) (hka : 0 < ka) (hv : 0 < v) (place : Nat → Geo) (radius : Nat → ℝ) (t0 : ℝ) (det : Nat → Option Bool) (ops₀ : List (Op ℝ Geo))
    (σ : St ℝ Geo) (hσ : σ = run (subI k ka place radius) (St.init t0 det) ops₀) (m s : Nat) (ws : List Geo)
    (hdet : σ.detect m = some true) (hs : s ∈ σ.sensors) (hq : Dead σ m s) (hok : (step (subI k ka place radius) σ (.start m v ws)).2 = .ok)
    (hC : ∀ pre a b post, ws = pre ++ a :: b :: post → angleOf a b ≤ π - 1 / 10 ^ 6) (ops : List (Op ℝ Geo)) (hops : ∀ o ∈ ops, Foreign m s o) :
    ∃ new, told (run (subI k ka place radius) (step (subI k ka place radius) σ (.start m v ws)).1 ops) m s = told σ m s ++ new ∧
      ∀ t e, (t, e) ∈ new → ∃ pre a b post pt x, ws = pre ++ a :: b :: post ∧ Subdiv.Right k ka v (radius s) a b (place s) pt x ∧ σ.now ≤ t ∧
        t ≤ σ.now + wayTime k v (pre ++ [a]) + x.time ∧ (e = true ∧ (x.kind = .startInside ∨ x.kind = .enter) ∨ e = false ∧ x.kind = .exit) ∧
        (x.kind ≠ .startInside → (∀ pre' a' b' post', pre ++ [a] = pre' ++ a' :: b' :: post' → ∃ h pt, subdivide k ka a' b' v (place s) (radius s) = .ok (.hits h pt)) →
          t = σ.now + wayTime k v (pre ++ [a]) + x.time) := by
  obtain ⟨new, h1, h2⟩ := c43_source (subI k ka place radius) t0 det ops₀ σ hσ m s v ws hdet hs hq hok ops hops
  refine ⟨new, h1, fun t e hx => ?_⟩
  obtain ⟨pre, a, b, post, res, g1, g2, c, g3, due, g4, g5, g6⟩ := h2 (t, e) hx
  obtain ⟨l, pt, x, k1, k2, rfl, -⟩ := legOf_some g2 g3
  have hr := (c72_hits hk hka hv (hC pre a b post g1) k1).2.2 x k2
  obtain ⟨b1, b2, b3⟩ := took_bounds hk hka hv place radius s (pre ++ [a]) fun pre' a' b' post' h =>
    hC pre' a' b' (post' ++ b :: post) (by rw [g1, show pre ++ a :: b :: post = (pre ++ [a]) ++ b :: post by simp, h]; simp)
  have hbeg := hr.begun
  refine ⟨pre, a, b, post, pt, x, g1, hr, ?_⟩
  dsimp only at g4 g5 g6
  cases e with
  | true =>
    obtain ⟨hk1, hk2⟩ := g5 rfl
    have hkind : x.kind = .startInside ∨ x.kind = .enter := hk1.elim (fun h => .inr (kindOf_enter h)) fun h => .inl (kindOf_start h)
    have henter : x.kind ≠ .startInside → t = due := by
      intro hne
      have he := hkind.resolve_left hne
      obtain ⟨T, _, q1, q2, -⟩ := hr.enter he
      rcases hk2 with ⟨hc | hc, -⟩ | ⟨-, hc⟩
      · exact absurd (kindOf_start hc) hne
      · linarith
      · exact hc
    have hle : σ.now ≤ t ∧ t ≤ σ.now + wayTime k v (pre ++ [a]) + x.time := by
      rcases hk2 with ⟨-, hc⟩ | ⟨hc, hc'⟩
      · exact ⟨hc.ge, by linarith⟩
      · exact ⟨by linarith, by linarith⟩
    exact ⟨hle.1, hle.2, .inl ⟨rfl, hkind⟩, fun hne hall => by rw [henter hne, g4, b3 hall]⟩
  | false =>
    obtain ⟨hk1, hk2, hk3⟩ := g6 rfl
    exact ⟨by linarith, by linarith, .inr ⟨rfl, kindOf_exit hk1⟩, fun _ hall => by rw [hk3, g4, b3 hall]⟩

/-- **C43 with the numerical model on the spherical earth, on a leg.** A detectable mover starts from `p` to `f` with speed `v`. Whatever else happens, when a sensor is told at `t` that the mover
has come in range, the mover, going along the great circle, is in range (at an altitude between those of the ends), and it has just started or was at a place out of range less than
46.4 m before; when it is told that the mover has left, the mover is in range and at a place out of range within 46.4 m afterwards. Missing: that everything is told (stays of less
than 9261 m may go unnoticed, `c72_missed`), and the search may raise. -/
theorem c43_sampled_partial {k ka v : ℝ} (hk : 0 < k) (hka : 0 < ka) (hv : 0 < v) (place : Nat → Geo) (radius : Nat → ℝ) (t0 : ℝ) (det : Nat → Option Bool) (ops₀ : List (Op ℝ Geo))
    (σ : St ℝ Geo) (hσ : σ = run (subI k ka place radius) (St.init t0 det) ops₀) (m s : Nat) (p f : Geo)
    (hdet : σ.detect m = some true) (hs : s ∈ σ.sensors) (hq : Dead σ m s) (hok : (step (subI k ka place radius) σ (.start m v [p, f])).2 = .ok)
    (hC : angleOf p f ≤ π - 1 / 10 ^ 6) (ops : List (Op ℝ Geo)) (hops : ∀ o ∈ ops, Foreign m s o) :
    ∃ new, told (run (subI k ka place radius) (step (subI k ka place radius) σ (.start m v [p, f])).1 ops) m s = told σ m s ++ new ∧
      ∀ t e, (t, e) ∈ new → σ.now ≤ t ∧ v * k * (t - σ.now) ≤ R * angleOf p f + 0.8 ∧
        (∃ h ∈ Set.uIcc (p.alt * ka) (f.alt * ka), InRange (radius s * k) (inSpace ka (place s)) (travel p f (v * k * (t - σ.now) / R)) h) ∧
        (e = true → t = σ.now ∨ ∃ T, σ.now ≤ T ∧ T < t ∧ v * k * (t - T) ≤ 46.4 ∧
          ∃ h ∈ Set.uIcc (p.alt * ka) (f.alt * ka), ¬ InRange (radius s * k) (inSpace ka (place s)) (travel p f (v * k * (T - σ.now) / R)) h) ∧
        (e = false → ∃ T, t < T ∧ v * k * (T - t) ≤ 46.4 ∧
          ∃ h ∈ Set.uIcc (p.alt * ka) (f.alt * ka), ¬ InRange (radius s * k) (inSpace ka (place s)) (travel p f (v * k * (T - σ.now) / R)) h) := by
  have hsplit : ∀ pre (a b : Geo) post, [p, f] = pre ++ a :: b :: post → pre = [] ∧ p = a ∧ f = b := by
    intro pre a b post h
    match pre, h with
    | [], h => simp at h; exact ⟨rfl, h.1, h.2.1⟩
    | [_], h => simp at h
    | _ :: _ :: _, h => simp at h
  obtain ⟨new, h1, h2⟩ := c43_source (subI k ka place radius) t0 det ops₀ σ hσ m s v [p, f] hdet hs hq hok ops hops
  refine ⟨new, h1, fun t e hx => ?_⟩
  obtain ⟨pre, a, b, post, res, g1, g2, c, g3, due, g4, g5, g6⟩ := h2 (t, e) hx
  obtain ⟨rfl, rfl, rfl⟩ := hsplit pre a b post g1
  obtain ⟨l, pt, x, k1, k2, rfl, -⟩ := legOf_some g2 g3
  obtain ⟨-, hpt, hall⟩ := c72_hits hk hka hv hC k1
  have hr := hall x k2
  have hbeg := hr.begun
  simp only [List.nil_append, took, add_zero] at g4 g5 g6
  have hvk : 0 < v * k := mul_pos hv hk
  have ht : t = σ.now + x.time := by
    cases e with
    | true =>
      rcases (g5 rfl).2 with ⟨hc | hc, hc'⟩ | ⟨-, hc⟩
      · rw [hc', (hr.start (kindOf_start hc)).1, add_zero]
      · rw [hc']; linarith
      · rw [hc, g4]
    | false => rw [(g6 rfl).2.2, g4]
  have hx' : x.time = t - σ.now := by linarith
  have harr := hr.arrives
  have e1 : v * k * pt = R * angleOf p f := by rw [hpt]; field_simp
  rw [← hx']
  refine ⟨by linarith, by linarith [mul_sub (v * k) x.time pt], ⟨_, hr.height, hr.inRange⟩, fun he => ?_, fun he => ?_⟩
  · subst he
    rcases (g5 rfl).1 with hc | hc
    · obtain ⟨T, h, q1, q2, q3, q4, q5⟩ := hr.enter (kindOf_enter hc)
      refine .inr ⟨σ.now + T, by linarith, by linarith, ?_, h, q4, ?_⟩
      · rwa [ht, add_sub_add_left_eq_sub]
      · rwa [add_sub_cancel_left]
    · left; rw [ht, (hr.start (kindOf_start hc)).1, add_zero]
  · subst he
    obtain ⟨T, h, q2, q3, -, q4, q5⟩ := hr.exit (kindOf_exit (g6 rfl).1)
    refine ⟨σ.now + T, by linarith, ?_, h, q4, ?_⟩
    · rwa [ht, add_sub_add_left_eq_sub]
    · rwa [add_sub_cancel_left]

section Ellipsoid

open Verif.Geod
open Verif.Subdiv.Wgs84 (Leg Near)

/-- **C43 with the numerical model on the WGS84 ellipsoid, on a leg** of at most 1000 km. A detectable mover starts from `p` to `f` with speed `v`. Whatever else happens, when a sensor
is told something at `t`, it is a crossing `x` that is right in the sense of C82: its location is in range, and within 75 m there is a place out of range, before it on the leg
for an entry (unless told at the start), after it for an exit; and the mover, on the line of the leg, is within 101 m of it (and the cube of the length over 9.4e14 m²) at `t`.
Missing: that everything is told, longer legs and paths, and the search may raise. -/
theorem c43_sampled_wgs84_partial {k ka v : ℝ} (hk : 0 < k) (hka : ka ≠ 0) (hv : 0 < v) (place : Nat → Geo) (radius : Nat → ℝ) (t0 : ℝ) (det : Nat → Option Bool) (ops₀ : List (Op ℝ Geo))
    (σ : St ℝ Geo) (hσ : σ = run (subI84 k ka place radius) (St.init t0 det) ops₀) (m s : Nat) (p f : Geo)
    (hdet : σ.detect m = some true) (hs : s ∈ σ.sensors) (hq : Dead σ m s) (hok : (step (subI84 k ka place radius) σ (.start m v [p, f])).2 = .ok)
    (hp : Lat (Wgs84.deg p)) (hf : Lat (Wgs84.deg f)) (hlong : ∀ l pt, Wgs84.subdivide k ka p f v (place s) (radius s) = .ok (.hits l pt) → pt * (v * k) ≤ 1e6)
    (ops : List (Op ℝ Geo)) (hops : ∀ o ∈ ops, Foreign m s o) :
    ∃ new, told (run (subI84 k ka place radius) (step (subI84 k ka place radius) σ (.start m v [p, f])).1 ops) m s = told σ m s ++ new ∧
      ∀ t e, (t, e) ∈ new → ∃ γ w D pt x, Leg (Wgs84.deg p) (Wgs84.deg f) γ w D ∧ Wgs84.Right k ka v (radius s) p f (place s) γ w D pt x ∧
        t = σ.now + x.time ∧ Near γ w ((t - σ.now) * (v * k)) (101 + D ^ 3 / 9.4e14) (ground (Wgs84.deg x.loc)) ∧
        (e = true ∧ (x.kind = .startInside ∧ t = σ.now ∨ x.kind = .enter) ∨ e = false ∧ x.kind = .exit) := by
  have hsplit : ∀ pre (a b : Geo) post, [p, f] = pre ++ a :: b :: post → pre = [] ∧ p = a ∧ f = b := by
    intro pre a b post h
    match pre, h with
    | [], h => simp at h; exact ⟨rfl, h.1, h.2.1⟩
    | [_], h => simp at h
    | _ :: _ :: _, h => simp at h
  obtain ⟨new, h1, h2⟩ := c43_source (subI84 k ka place radius) t0 det ops₀ σ hσ m s v [p, f] hdet hs hq hok ops hops
  refine ⟨new, h1, fun t e hx => ?_⟩
  obtain ⟨pre, a, b, post, res, g1, g2, c, g3, due, g4, g5, g6⟩ := h2 (t, e) hx
  obtain ⟨rfl, rfl, rfl⟩ := hsplit pre a b post g1
  obtain ⟨l, pt, x, k1, k2, rfl, -⟩ := legOf_some g2 g3
  obtain ⟨-, γ, w, D, hleg, hpt, hall⟩ := Wgs84.c82_times_partial hk hka hv hp hf k1 (hlong l pt k1)
  obtain ⟨hr, hnear⟩ := hall x k2
  have hbeg := hr.begun
  simp only [List.nil_append, took, add_zero] at g4 g5 g6
  have ht : t = σ.now + x.time := by
    cases e with
    | true =>
      rcases (g5 rfl).2 with ⟨hc | hc, hc'⟩ | ⟨-, hc⟩
      · rw [hc', (hr.start (kindOf_start hc)).1, add_zero]
      · rw [hc']; linarith
      · rw [hc, g4]
    | false => rw [(g6 rfl).2.2, g4]
  refine ⟨γ, w, D, pt, x, hleg, hr, ht, by rw [ht, add_sub_cancel_left]; exact hnear, ?_⟩
  cases e with
  | true =>
    rcases (g5 rfl).1 with hc | hc
    · exact .inl ⟨rfl, .inr (kindOf_enter hc)⟩
    · exact .inl ⟨rfl, .inl ⟨kindOf_start hc, by rw [ht, (hr.start (kindOf_start hc)).1, add_zero]⟩⟩
  | false => exact .inr ⟨rfl, kindOf_exit (g6 rfl).1⟩

end Ellipsoid

/-! The hypotheses are met. -/

/-- a manager with a sensor -/
noncomputable def alone (I : Inter ℝ Geo) : St ℝ Geo := run I (St.init 0 fun _ => some true) [.addSensor 7]

theorem alone_eq (I : Inter ℝ Geo) : alone I = { (St.init 0 fun _ => some true : St ℝ Geo) with sensors := [7] } := by
  simp [alone, run, step, addSensor, find, St.init, Dict.keys]

theorem alone_start (I : Inter ℝ Geo) (v : ℝ) (p f : Geo) (e₁ e₂ : Entry ℝ) (pt : ℝ) (h : I p f v 7 = some ⟨[e₁, e₂], pt⟩) (h1 : e₁.kind = .startInside ∨ e₁.kind = .enter)
    (h2 : e₂.kind = .exit ∨ e₂.kind = .endInside) : (step I (alone I) (.start 1 v [p, f])).2 = .ok := by
  have hps : ∃ ps, processPair I ⟨v, [p, f], 0⟩ 7 = some ps := by
    rcases e₁ with ⟨k1, t1⟩
    rcases e₂ with ⟨k2, t2⟩
    dsimp only at h1 h2
    rcases h1 with rfl | rfl <;> rcases h2 with rfl | rfl <;> simp [processPair, scan, h, absorb, pairUp, valid]
  obtain ⟨ps, hps⟩ := hps
  rw [alone_eq]
  simp [step, startMover, St.init, find, findOne, Dict.has, Dict.get?, Dict.set, hps]

theorem two_kinds {l : List Hit} {a b : Crossing.Kind} (h : l.map (·.kind) = [a, b]) : ∃ x y : Hit, l = [x, y] ∧ x.kind = a ∧ y.kind = b := by
  match l, h with
  | [x, y], h => simp at h; exact ⟨x, y, rfl, h.1, h.2⟩

/-- An entry and an exit on the first leg and an entry on the second, along a line. -/
example (ops : List (Op ℚ ℚ)) (hops : ∀ o ∈ ops, Foreign 1 7 o) :
    ∃ new, told (run lineI (step lineI line0 (.start 1 1 [-3, 3, 0])).1 ops) 1 7 = [] ++ new ∧ ∀ x ∈ new, Source lineI 1 0 0 7 [-3, 3, 0] x :=
  c43_source lineI 0 _ [.addSensor 7] line0 rfl 1 7 1 [-3, 3, 0] rfl (by decide)
    (by intro p hp; simp [line0, run, step, addSensor, find, St.init, Dict.keys] at hp) (by decide) ops hops

deriving instance DecidableEq for Trip

/-- A sensor is added when the mover is on its way. -/
example (ops : List (Op ℚ ℚ)) (hops : ∀ o ∈ ops, Foreign 1 8 o) :
    let σ := run lineI line0 [.start 1 1 [-3, 3, 0], .fire 0, .fire 1, .advance 1]
    ∃ new, told (run lineI (step lineI σ (.addSensor 8)).1 ops) 1 8 = [] ++ new ∧ ∀ x ∈ new, Source lineI 1 0 1 8 [-3, 3, 0] x := by
  intro σ
  have hq : Quiet σ 1 8 := by unfold Quiet; decide +kernel
  have h1 : told σ 1 8 = [] := by decide +kernel
  have h2 : σ.now = 1 := by decide +kernel
  have := c43_source_added lineI 0 _ [.addSensor 7, .start 1 1 [-3, 3, 0], .fire 0, .fire 1, .advance 1] σ rfl 1 8 ⟨1, [-3, 3, 0], 0⟩ (by decide +kernel) (by decide +kernel) hq
    (by decide +kernel) ops hops
  rwa [h1, h2] at this

theorem sphere_near (ka : ℝ) (g : Geo) (u : E3) (h : ℝ) (hu : ‖u‖ = 1) (hg : |g.alt * ka| ≤ 1000) (hh : |h| ≤ 1000) : InRange 3e8 (inSpace ka g) u h := by
  unfold InRange inSpace
  have hR : R = 6378137 := rfl
  have h1 : ‖(R + h) • u‖ ≤ 6378137 + 1000 := by
    rw [norm_smul, hu, mul_one, Real.norm_eq_abs, hR]
    exact (abs_add_le _ _).trans (by rw [abs_of_pos (by norm_num : (0 : ℝ) < 6378137)]; linarith)
  have h2 : ‖(R + g.alt * ka) • spot g‖ ≤ 6378137 + 1000 := by
    rw [norm_smul, show ‖spot g‖ = 1 from place_norm _, mul_one, Real.norm_eq_abs, hR]
    exact (abs_add_le _ _).trans (by rw [abs_of_pos (by norm_num : (0 : ℝ) < 6378137)]; linarith)
  rw [dist_eq_norm]
  refine (norm_sub_le _ _).trans ?_
  norm_num
  linarith

/-- Along the equator, in sight of a sensor all the way. -/
theorem east_seen (ans : Answer) (h : subdivide 1 1 (eq 0) (eq 1) 10 (eq 0) 3e8 = .ok ans) : ans.kinds = [.startInside, .endInside] := by
  have ha : angleOf (eq 0) (eq 1) = (1 - 0) * π / 180 := angle_eq 0 1 (by norm_num) (by norm_num)
  have hp := pi_gt_three
  obtain ⟨n, t, st, n3, -, -, -, hst, hk⟩ := c72_kinds (by rw [ha]; norm_num; linarith) h
  rw [hk]
  have hall : ∀ i ≤ n, st i = true := by
    intro i hi
    rw [hst i hi, mul_one]
    refine sphere_near 1 (eq 0) _ _ ?_ (by simp [eq]) (by simp [eq])
    rw [degree_travel]
    simp [EuclideanSpace.norm_eq, Fin.sum_univ_three]
  unfold kindsOf
  rw [hall 0 (by omega), hall n le_rfl, List.filterMap_eq_nil_iff.2]
  · rfl
  · intro i hi
    rw [List.mem_range] at hi
    rw [hall i (by omega), hall (i + 1) (by omega), if_pos rfl]

theorem east_ok : let I := subI 1 1 (fun _ => eq 0) fun _ => 3e8
    (step I (alone I) (.start 1 10 [eq 0, eq 1])).2 = .ok := by
  intro I
  have ha : angleOf (eq 0) (eq 1) = (1 - 0) * π / 180 := angle_eq 0 1 (by norm_num) (by norm_num)
  have hp := pi_gt_three
  obtain ⟨ans, h⟩ : ∃ ans, subdivide 1 1 (eq 0) (eq 1) 10 (eq 0) 3e8 = .ok ans := by
    have hp4 := pi_lt_four
    refine c72_answers_partial 1 1 10 3e8 (eq 0) (eq 1) (eq 0) (by norm_num) (by norm_num) rfl ?_ ?_ (.inl fun ψ hψ => ?_) (.inl fun ψ hψ => ?_)
    · rw [ha, show R = 6378137 from rfl]; norm_num; linarith
    · rw [ha]; norm_num; linarith
    · rw [ha] at hψ
      rw [degree_travel]
      exact cos_pos_of_mem_Ioo ⟨by linarith [hψ.1], by linarith [hψ.2]⟩
    · rw [ha] at hψ
      rw [degree_travel]
      show cos (ψ + π / 2) ≤ 0
      rw [cos_add_pi_div_two]
      have := sin_nonneg_of_nonneg_of_le_pi hψ.1 (by linarith [hψ.2])
      linarith
  have hk := east_seen ans h
  obtain ⟨l, pt, rfl⟩ : ∃ l pt, ans = .hits l pt := by
    cases ans with
    | bad => cases hk
    | hits l pt => exact ⟨l, pt, rfl⟩
  obtain ⟨x, y, rfl, hx, hy⟩ := two_kinds hk
  have hI : I (eq 0) (eq 1) 10 7 = some ⟨[⟨kindOf x.kind, x.time⟩, ⟨kindOf y.kind, y.time⟩], pt⟩ := by
    show legOf (subdivide 1 1 (eq 0) (eq 1) 10 (eq 0) 3e8) = _
    rw [h]; rfl
  exact alone_start I 10 (eq 0) (eq 1) _ _ pt hI (.inl (by rw [hx]; rfl)) (.inr (by rw [hy]; rfl))

example (ops : List (Op ℝ Geo)) (hops : ∀ o ∈ ops, Foreign 1 7 o) :
    let I := subI 1 1 (fun _ => eq 0) fun _ => 3e8
    ∃ new, told (run I (step I (alone I) (.start 1 10 [eq 0, eq 1])).1 ops) 1 7 = [] ++ new ∧ ∀ t, (t, true) ∈ new →
      InRange 3e8 (inSpace 1 (eq 0)) (travel (eq 0) (eq 1) (10 * 1 * (t - 0) / R)) 0 := by
  intro I
  have ha : angleOf (eq 0) (eq 1) = (1 - 0) * π / 180 := angle_eq 0 1 (by norm_num) (by norm_num)
  have hp := pi_gt_three
  have e := alone_eq I
  obtain ⟨new, h1, h2⟩ := c43_sampled_partial (k := 1) (ka := 1) (v := 10) one_pos one_pos (by norm_num) (fun _ => eq 0) (fun _ => 3e8) 0 _ [.addSensor 7] (alone I) rfl 1 7 (eq 0) (eq 1)
    (by rw [e]; rfl) (by rw [e]; simp) (by rw [e]; intro p hp; simp [St.init] at hp) east_ok (by rw [ha]; norm_num; linarith) ops hops
  have hnow : (alone I).now = 0 := by rw [e]; rfl
  have htold : told (alone I) 1 7 = [] := by rw [e]; rfl
  rw [htold] at h1
  refine ⟨new, h1, fun t ht => ?_⟩
  obtain ⟨-, -, ⟨z, hz, hin⟩, -⟩ := h2 t true ht
  have hz0 : z = 0 := by simpa [eq] using hz
  rw [hz0, hnow, mul_one] at hin
  exact hin

/-- the theorem for whole paths, on the same leg -/
example (ops : List (Op ℝ Geo)) (hops : ∀ o ∈ ops, Foreign 1 7 o) :
    let I := subI 1 1 (fun _ => eq 0) fun _ => 3e8
    ∃ new, told (run I (step I (alone I) (.start 1 10 [eq 0, eq 1])).1 ops) 1 7 = told (alone I) 1 7 ++ new ∧
      ∀ t e, (t, e) ∈ new → ∃ pre a b post pt x, [eq 0, eq 1] = pre ++ a :: b :: post ∧ Subdiv.Right 1 1 10 3e8 a b (eq 0) pt x ∧ (alone I).now ≤ t ∧
        t ≤ (alone I).now + wayTime 1 10 (pre ++ [a]) + x.time := by
  intro I
  have hp := pi_gt_three
  have e := alone_eq I
  obtain ⟨new, h1, h2⟩ := c43_sampled_path_partial (k := 1) (ka := 1) (v := 10) one_pos one_pos (by norm_num) (fun _ => eq 0) (fun _ => 3e8) 0 _ [.addSensor 7] (alone I) rfl 1 7 [eq 0, eq 1]
    (by rw [e]; rfl) (by rw [e]; simp) (by rw [e]; intro p hp; simp [St.init] at hp) east_ok (fun pre a b post h => by
      rcases pre with _ | ⟨c, _ | ⟨d, pre⟩⟩
      · simp only [List.nil_append, List.cons.injEq] at h
        obtain ⟨rfl, rfl, -⟩ := h
        rw [angle_eq 0 1 (by norm_num) (by norm_num)]; norm_num; linarith
      · simp at h
      · simp at h) ops hops
  refine ⟨new, h1, fun t e ht => ?_⟩
  obtain ⟨pre, a, b, post, pt, x, g1, g2, g3, g4, -⟩ := h2 t e ht
  exact ⟨pre, a, b, post, pt, x, g1, g2, g3, g4⟩

section Example

open Verif.Subdiv.Wgs84 (Leg Near c82_equator deg)
open Verif.Geod

/-- Along the equator of the ellipsoid, starting in range and leaving. -/
example (ops : List (Op ℝ Geo)) (hops : ∀ o ∈ ops, Foreign 1 7 o) :
    let I := subI84 1 1 (fun _ => ⟨0, 0, 0, false⟩) fun _ => 30000
    ∃ new, told (run I (step I (alone I) (.start 1 10 [⟨0, 0, 0, false⟩, ⟨0, 1, 0, false⟩])).1 ops) 1 7 = [] ++ new ∧
      ∀ t, (t, false) ∈ new → ∃ γ w D, ∃ x : Hit, Leg (0, 0) (0, 1) γ w D ∧ x.kind = .exit ∧ t = x.time ∧ Near γ w (t * 10) (101 + D ^ 3 / 9.4e14) (ground (deg x.loc)) := by
  intro I
  have near : Wgs84.InRange ((30000 : ℝ) * 1) (Subdiv.toTuple 1 ⟨0, 0, 0, false⟩) (Subdiv.toTuple 1 ⟨0, 0, 0, false⟩) := by
    unfold Wgs84.InRange; rw [dist_self]; norm_num
  have far : ¬ Wgs84.InRange ((30000 : ℝ) * 1) (Subdiv.toTuple 1 ⟨0, 0, 0, false⟩) (Subdiv.toTuple 1 ⟨0, 1, 0, false⟩) := by
    unfold Wgs84.InRange
    rw [not_le]
    have := Wgs84.degree_apart
    simpa [Subdiv.toTuple, Geo.toDegrees] using this
  obtain ⟨ans, h, h2, h3, -⟩ := c82_equator (k := 1) (ka := 1) (v := 10) (r := 30000) (w := 1) (s := ⟨0, 0, 0, false⟩) (f := ⟨0, 1, 0, false⟩) (c := ⟨0, 0, 0, false⟩)
    one_pos one_ne_zero (by norm_num) (by norm_num) rfl rfl rfl (Or.inl rfl) Wgs84.degree_long (by unfold Wgs.f deg Geo.toDegrees; norm_num)
  have hk := h3 near far
  obtain ⟨l, pt, rfl⟩ : ∃ l pt, ans = .hits l pt := by
    cases ans with
    | bad => cases hk
    | hits l pt => exact ⟨l, pt, rfl⟩
  obtain ⟨hpt, -⟩ := h2 l pt rfl
  obtain ⟨x, y, rfl, hx, hy⟩ := two_kinds hk
  have hI : I ⟨0, 0, 0, false⟩ ⟨0, 1, 0, false⟩ 10 7 = some ⟨[⟨kindOf x.kind, x.time⟩, ⟨kindOf y.kind, y.time⟩], pt⟩ := by
    show legOf (Wgs84.subdivide 1 1 ⟨0, 0, 0, false⟩ ⟨0, 1, 0, false⟩ 10 ⟨0, 0, 0, false⟩ 30000) = _
    rw [h]; rfl
  have hok := alone_start I 10 _ _ _ _ pt hI (.inl (by rw [hx]; rfl)) (.inl (by rw [hy]; rfl))
  have e := alone_eq I
  have hlat : ∀ d : ℝ, Lat (deg ⟨0, d, 0, false⟩) := fun d => by constructor <;> simp [deg, Geo.toDegrees]
  have hdeg : ∀ d : ℝ, deg ⟨0, d, 0, false⟩ = (0, d) := fun d => by simp [deg, Geo.toDegrees]
  obtain ⟨new, h1, h2⟩ := c43_sampled_wgs84_partial (k := 1) (ka := 1) (v := 10) one_pos one_ne_zero (by norm_num) (fun _ => ⟨0, 0, 0, false⟩) (fun _ => 30000) 0 _ [.addSensor 7] (alone I) rfl
    1 7 ⟨0, 0, 0, false⟩ ⟨0, 1, 0, false⟩ (by rw [e]; rfl) (by rw [e]; simp) (by rw [e]; intro p hp; simp [St.init] at hp) hok (hlat 0) (hlat 1) (fun l' pt' h' => by
      rw [h] at h'
      obtain ⟨-, rfl⟩ : _ ∧ pt = pt' := by injection h' with h'; injection h' with e1 e2; exact ⟨e1, e2⟩
      have := (abs_le.1 hpt).2
      rw [hdeg, hdeg] at this
      have hp := pi_lt_four
      unfold Wgs.a radians at this
      norm_num at this ⊢
      linarith) ops hops
  have hnow : (alone I).now = 0 := by rw [e]; rfl
  have htold : told (alone I) 1 7 = [] := by rw [e]; rfl
  rw [htold] at h1
  refine ⟨new, h1, fun t ht => ?_⟩
  obtain ⟨γ, w, D, pt', z, g1, g2, g3, g4, g5⟩ := h2 t false ht
  rw [hnow, zero_add] at g3
  rw [hnow, sub_zero, mul_one] at g4
  rw [hdeg, hdeg] at g1
  rcases g5 with ⟨hc, -⟩ | ⟨-, hc⟩
  · cases hc
  · exact ⟨γ, w, D, z, g1, hc, g3, g4⟩

end Example

end Verif.Queued
