import Verif.Queued.Stay

/-! # C43 with the numerical intersection models: starting on a leg raises only when the search does -/

namespace Verif.Queued

open Verif.Path Verif.Globe Verif.Subdiv Real
open Verif.Sphere (Tag)

/-- Kinds of completed stays: each begins, and ends with an EXIT. -/
inductive Closed : List Crossing.Kind → Prop
  | nil : Closed []
  | snoc {l a} : Closed l → a = .startInside ∨ a = .enter → Closed (l ++ [a, .exit])

/-- The kinds up to sample `n`: completed stays, and the beginning of one if the sample is in range. -/
theorem kinds_closed (st : ℕ → Bool) (n : ℕ) :
    let l := (if st 0 then [Crossing.Kind.startInside] else []) ++ (List.range n).filterMap (fun i => if st i = st (i + 1) then none else some (if st i then .exit else .enter))
    (st n = false → Closed l) ∧ (st n = true → ∃ l' a, l = l' ++ [a] ∧ Closed l' ∧ (a = .startInside ∨ a = .enter)) := by
  induction n with
  | zero =>
    intro l
    refine ⟨fun h => ?_, fun h => ⟨[], .startInside, ?_, .nil, .inl rfl⟩⟩
    · simp only [l, h]; exact .nil
    · simp [l, h]
  | succ n ih =>
    intro l
    have hl : l = ((if st 0 then [Crossing.Kind.startInside] else []) ++ (List.range n).filterMap (fun i => if st i = st (i + 1) then none else some (if st i then .exit else .enter))) ++
        (if st n = st (n + 1) then [] else [if st n then Crossing.Kind.exit else .enter]) := by
      simp only [l, List.range_succ, List.filterMap_append, List.append_assoc]
      congr 2
      by_cases h : st n = st (n + 1) <;> simp [h]
    obtain ⟨i1, i2⟩ := ih
    rw [hl]
    refine ⟨fun h => ?_, fun h => ?_⟩
    · cases hn : st n with
      | false => simp only [h, if_true, List.append_nil]; exact i1 hn
      | true =>
        obtain ⟨l', a, e, hc, ha⟩ := i2 hn
        rw [e, h, if_neg (by decide), List.append_assoc]
        exact .snoc hc ha
    · cases hn : st n with
      | false =>
        exact ⟨_, .enter, by rw [h]; rfl, i1 hn, .inr rfl⟩
      | true =>
        rw [h, if_pos rfl, List.append_nil]
        exact i2 hn

/-- The kinds of all samples: completed stays, and perhaps one to the end. -/
theorem kindsOf_closed (st : ℕ → Bool) (n : ℕ) : Closed (kindsOf st n) ∨ ∃ l a, kindsOf st n = l ++ [a, .endInside] ∧ Closed l ∧ (a = .startInside ∨ a = .enter) := by
  obtain ⟨h1, h2⟩ := kinds_closed st n
  unfold kindsOf
  cases hn : st n with
  | false => left; simpa using h1 hn
  | true =>
    obtain ⟨l', a, e, hc, ha⟩ := h2 hn
    right
    exact ⟨l', a, by rw [e]; simp, hc, ha⟩

variable {α L : Type} [Field α] [LinearOrder α]

/-- The crossings in order, not yet paired: no END_INSIDE but the last. -/
theorem absorb_app (base : α) (acc es : List (Entry α)) (ha : ∀ x ∈ acc, x.kind ≠ .endInside) (he : ∀ x ∈ es.dropLast, x.kind ≠ .endInside) :
    absorb base acc es = some ((es.map fun e => ⟨e.kind, base + e.time⟩).reverse ++ acc) := by
  induction es generalizing acc with
  | nil => simp [absorb]
  | cons e es ih =>
    have step : absorb base acc (e :: es) = absorb base (⟨e.kind, base + e.time⟩ :: acc) es := by
      cases acc with
      | nil => rfl
      | cons l acc => simp only [absorb]; rw [if_neg (ha l (by simp))]
    rw [step]
    rcases es with _ | ⟨e', es⟩
    · simp [absorb]
    · rw [ih]
      · simp
      · intro x hx
        rcases List.mem_cons.1 hx with rfl | hx
        · exact he e (by simp)
        · exact ha x hx
      · intro x hx
        exact he x (by rw [List.dropLast_cons₂]; exact List.mem_cons_of_mem _ hx)

theorem pairUp_app (l l' : List (Entry α)) (ps ps' : List (Entry α × Entry α)) (h : pairUp l = some ps) (h' : pairUp l' = some ps') : pairUp (l ++ l') = some (ps ++ ps') := by
  induction l using pairUp.induct generalizing ps with
  | case1 => simp only [pairUp, Option.some.injEq] at h; subst h; simpa using h'
  | case2 => simp [pairUp] at h
  | case3 a b l ih =>
    simp only [pairUp, Option.map_eq_some_iff] at h
    obtain ⟨qs, h1, rfl⟩ := h
    simp [pairUp, ih qs h1]

theorem Closed.pairs {l : List Crossing.Kind} (h : Closed l) (es : List (Entry α)) (he : es.map (·.kind) = l.map kindOf) :
    (∃ ps, pairUp es = some ps ∧ ps.all valid = true) ∧ ∀ x ∈ es, x.kind ≠ .endInside := by
  induction h generalizing es with
  | nil => simp at he; subst he; exact ⟨⟨[], rfl, rfl⟩, by simp⟩
  | @snoc l a h ha ih =>
    rw [List.map_append, List.map_eq_append_iff] at he
    obtain ⟨es', fs, rfl, h1, h2⟩ := he
    obtain ⟨⟨ps, g1, g2⟩, g3⟩ := ih es' h1
    obtain ⟨x, fs, rfl, hx, h2⟩ := List.map_eq_cons_iff.1 h2
    obtain ⟨y, fs, rfl, hy, h2⟩ := List.map_eq_cons_iff.1 h2
    rw [List.map_nil, List.map_eq_nil_iff] at h2
    subst h2
    have hv : valid (x, y) = true := by
      unfold valid
      rcases ha with rfl | rfl <;> simp [hx, hy, kindOf]
    refine ⟨⟨ps ++ [(x, y)], pairUp_app _ _ _ _ g1 rfl, by simp [g2, hv]⟩, ?_⟩
    intro z hz
    simp only [List.mem_append, List.mem_cons, List.not_mem_nil, or_false] at hz
    rcases hz with hz | rfl | rfl
    · exact g3 z hz
    · rw [hx]; rcases ha with rfl | rfl <;> decide
    · rw [hy]; decide

/-- An answer with the kinds of samples is accepted. -/
theorem pair_samples (I : Inter α L) (v now : α) (p f : L) (s : Nat) (res : LegRes α) (hI : I p f v s = some res) (st : ℕ → Bool) (n : ℕ)
    (hk : res.entries.map (·.kind) = (kindsOf st n).map kindOf) : ∃ ps, processPair I ⟨v, [p, f], now⟩ s = some ps := by
  have key : (∃ ps, pairUp res.entries = some ps ∧ ps.all valid = true) ∧ ∀ x ∈ res.entries.dropLast, x.kind ≠ .endInside := by
    rcases kindsOf_closed st n with hc | ⟨l, a, e, hc, ha⟩
    · obtain ⟨h1, h2⟩ := hc.pairs res.entries hk
      exact ⟨h1, fun x hx => h2 x (List.mem_of_mem_dropLast hx)⟩
    · rw [e, List.map_append, List.map_eq_append_iff] at hk
      obtain ⟨es', fs, h0, h1, h2⟩ := hk
      obtain ⟨⟨ps, g1, g2⟩, g3⟩ := hc.pairs es' h1
      obtain ⟨x, fs, rfl, hx, h2⟩ := List.map_eq_cons_iff.1 h2
      obtain ⟨y, fs, rfl, hy, h2⟩ := List.map_eq_cons_iff.1 h2
      rw [List.map_nil, List.map_eq_nil_iff] at h2
      subst h2
      have hv : valid (x, y) = true := by
        unfold valid
        rcases ha with rfl | rfl <;> simp [hx, hy, kindOf]
      rw [h0]
      refine ⟨⟨ps ++ [(x, y)], pairUp_app _ _ _ _ g1 rfl, by simp [g2, hv]⟩, ?_⟩
      intro z hz
      have hd : (es' ++ [x, y]).dropLast = es' ++ [x] := by
        rw [show es' ++ [x, y] = (es' ++ [x]) ++ [y] by simp, List.dropLast_concat]
      rw [hd] at hz
      simp only [List.mem_append, List.mem_cons, List.not_mem_nil, or_false] at hz
      rcases hz with hz | rfl
      · exact g3 z hz
      · rw [hx]; rcases ha with rfl | rfl <;> decide
  obtain ⟨⟨ps, h1, h2⟩, h3⟩ := key
  have hmap : ∀ (b : α) (l : List (Entry α)) ps, pairUp l = some ps →
      pairUp (l.map fun e => (⟨e.kind, b + e.time⟩ : Entry α)) = some (ps.map fun q => (⟨q.1.kind, b + q.1.time⟩, ⟨q.2.kind, b + q.2.time⟩)) := by
    intro b l
    induction l using pairUp.induct with
    | case1 => intro ps h; simp only [pairUp, Option.some.injEq] at h; subst h; rfl
    | case2 => intro ps h; simp [pairUp] at h
    | case3 x y l ih =>
      intro ps h
      simp only [pairUp, Option.map_eq_some_iff] at h
      obtain ⟨qs, g1, rfl⟩ := h
      simp [pairUp, ih qs g1]
  have hval : (ps.map fun q => ((⟨q.1.kind, now + 0 + q.1.time⟩, ⟨q.2.kind, now + 0 + q.2.time⟩) : Entry α × Entry α)).all valid = true := by
    rw [List.all_map, ← h2]
    congr 1
  refine ⟨ps.map fun q => (⟨q.1.kind, now + 0 + q.1.time⟩, ⟨q.2.kind, now + 0 + q.2.time⟩), ?_⟩
  simp only [processPair, scan, hI, absorb_app (now + 0) [] res.entries (by simp) h3, List.append_nil, List.reverse_reverse, hmap _ _ _ h1]
  rw [if_pos hval]

/-- Scheduling succeeds if every pair is accepted. -/
theorem find_ok (I : Inter α L) (l : List Nat) (m : Nat) (t : Trip α L) (σ : St α L) (ht : σ.movers.get? m = some t) (h : ∀ s ∈ l, ∃ ps, processPair I t s = some ps) :
    (find I (l.map fun s => (m, s)) σ).2 = .ok := by
  induction l generalizing σ with
  | nil => rfl
  | cons s l ih =>
    obtain ⟨ps, hps⟩ := h s (by simp)
    have h1 : findOne I σ m s = (ps.foldl (schedule m s) σ, .ok) := by simp only [findOne, ht, hps]
    simp only [List.map_cons, find, h1]
    exact ih _ (by rw [schedule_movers]; exact ht) fun s' hs' => h s' (by simp [hs'])

theorem legOf_kinds {a : Answer} {res : LegRes ℝ} (h : legOf (.ok a) = some res) : res.entries.map (·.kind) = a.kinds.map kindOf := by
  cases a with
  | bad => simp only [legOf, Option.some.injEq] at h; subst h; rfl
  | hits l pt => simp only [legOf, Option.some.injEq] at h; subst h; simp [Answer.kinds]

/-- **C43, starting on a leg on the spherical earth.** A detectable mover that is not moving is started on a leg without an exception if the search answers for every sensor: the
crossings it reports always make up stays in range. (`c72_answers_partial` says when the search answers.) Missing: paths of several legs, where the end of a leg and the start of the
next need not agree. -/
theorem c43_sampled_starts_partial {k ka v : ℝ} (place : Nat → Geo) (radius : Nat → ℝ) (σ : St ℝ Geo) (m : Nat) (p f : Geo) (hdet : σ.detect m = some true)
    (hm : σ.movers.has m = false) (hC : angleOf p f ≤ π - 1 / 10 ^ 6) (h : ∀ s ∈ σ.sensors, ∃ ans, subdivide k ka p f v (place s) (radius s) = .ok ans) :
    (step (subI k ka place radius) σ (.start m v [p, f])).2 = .ok := by
  simp only [step, startMover, hdet, hm]
  refine find_ok _ _ m ⟨v, [p, f], σ.now⟩ _ (Dict.get?_set_self _ _ _) fun s hs => ?_
  obtain ⟨ans, ha⟩ := h s hs
  obtain ⟨n, t, st, -, -, -, -, -, hk⟩ := c72_kinds hC ha
  obtain ⟨res, hr⟩ : ∃ res, legOf (.ok ans) = some res := by cases ans <;> exact ⟨_, rfl⟩
  refine pair_samples _ v σ.now p f s res ?_ st n (by rw [legOf_kinds hr, hk])
  show legOf (subdivide k ka p f v (place s) (radius s)) = _
  rw [ha, hr]

/-- A sensor in the middle of the leg and one that is never reached. -/
example (σ : St ℝ Geo) (hdet : σ.detect 1 = some true) (hm : σ.movers.has 1 = false) (hs : σ.sensors = [7, 8]) :
    (step (subI 1 1 (fun _ => eq (1 / 2)) fun s => if s = 7 then R * (2 * sin (π / 1440)) else 0) σ (.start 1 10 [eq 0, eq 1])).2 = .ok := by
  have ha : angleOf (eq 0) (eq 1) = (1 - 0) * π / 180 := angle_eq 0 1 (by norm_num) (by norm_num)
  have hp := pi_gt_three
  have hp4 := pi_lt_four
  refine c43_sampled_starts_partial _ _ σ 1 (eq 0) (eq 1) hdet hm (by rw [ha]; norm_num; linarith) fun s h => ?_
  by_cases h7 : s = 7
  · simp only [h7, if_true]; exact middle_answers
  · simp only [h7, if_false]
    refine c72_answers_partial 1 1 10 0 (eq 0) (eq 1) (eq (1 / 2)) (by norm_num) (by norm_num) rfl ?_ ?_ (.inl fun ψ hψ => ?_) (.inl fun ψ hψ => ?_)
    · rw [ha, show R = 6378137 from rfl]; norm_num; linarith
    · rw [ha]; norm_num; linarith
    · rw [ha] at hψ
      rw [degree_travel]
      exact cos_pos_of_mem_Ioo ⟨by linarith [hψ.1], by linarith [hψ.2]⟩
    · rw [ha] at hψ
      rw [degree_travel]
      show cos (ψ + π / 2) ≤ 0
      rw [cos_add_pi_div_two]
      have := sin_nonneg_of_nonneg_of_le_pi hψ.1 (by linarith [hψ.2])
      linarith

/-- **The same on the WGS84 ellipsoid.** -/
theorem c43_sampled_wgs84_starts_partial {k ka v : ℝ} (place : Nat → Geo) (radius : Nat → ℝ) (σ : St ℝ Geo) (m : Nat) (p f : Geo) (hdet : σ.detect m = some true)
    (hm : σ.movers.has m = false) (hp : Geod.Lat (Wgs84.deg p)) (hf : Geod.Lat (Wgs84.deg f)) (h : ∀ s ∈ σ.sensors, ∃ ans, Wgs84.subdivide k ka p f v (place s) (radius s) = .ok ans) :
    (step (subI84 k ka place radius) σ (.start m v [p, f])).2 = .ok := by
  simp only [step, startMover, hdet, hm]
  refine find_ok _ _ m ⟨v, [p, f], σ.now⟩ _ (Dict.get?_set_self _ _ _) fun s hs => ?_
  obtain ⟨ans, ha⟩ := h s hs
  obtain ⟨-, -, -, -, n, -, st, -, -, -, -, -, -, hk⟩ := Wgs84.c82_kinds hp hf ha
  obtain ⟨res, hr⟩ : ∃ res, legOf (.ok ans) = some res := by cases ans <;> exact ⟨_, rfl⟩
  refine pair_samples _ v σ.now p f s res ?_ st n (by rw [legOf_kinds hr, hk])
  show legOf (Wgs84.subdivide k ka p f v (place s) (radius s)) = _
  rw [ha, hr]

example (σ : St ℝ Geo) (hdet : σ.detect 1 = some true) (hm : σ.movers.has 1 = false) :
    (step (subI84 1 1 (fun _ => ⟨0, 0, 0, false⟩) fun _ => 30000) σ (.start 1 10 [⟨0, 0, 0, false⟩, ⟨0, 1, 0, false⟩])).2 = .ok := by
  have hlat : ∀ d : ℝ, Geod.Lat (Wgs84.deg ⟨0, d, 0, false⟩) := fun d => by constructor <;> simp [Wgs84.deg, Geo.toDegrees]
  refine c43_sampled_wgs84_starts_partial _ _ σ 1 _ _ hdet hm (hlat 0) (hlat 1) fun s _ => ?_
  obtain ⟨ans, h, -⟩ := Wgs84.c82_equator (k := 1) (ka := 1) (v := 10) (r := 30000) (w := 1) (s := ⟨0, 0, 0, false⟩) (f := ⟨0, 1, 0, false⟩) (c := ⟨0, 0, 0, false⟩)
    one_pos one_ne_zero (by norm_num) (by norm_num) rfl rfl rfl (Or.inl rfl) Wgs84.degree_long (by unfold Wgs.f Wgs84.deg Geo.toDegrees; norm_num)
  exact ⟨ans, h⟩

end Verif.Queued
