import Verif.Path.Geometry

/-! # C18: a moving actor is where its path says

In the theorems, `σ₀` is any state in which the location is not in use, `v` the speed and `ws` the waypoints of a movement started in
it, and `os` any sequence of reads, questions for the remaining waypoints, assignments to the location, attempts to start another movement
and passing time. -/

namespace Verif.Path

variable {P Q : Type}

/-- A movement in progress: started in `σ₀`, then `os`. -/
noncomputable def under (K : Kind P) (σ₀ : St P) (v : ℝ) (ws : List P) (os : List (Op P)) : St P := exec K os (step K σ₀ (.activate v ws)).1

/-- The slack of `_get_index` for cartesian locations. -/
noncomputable def slack : ℝ := 1 / 10 ^ 12

theorem slack_pos : 0 < slack := by unfold slack; positivity

theorem under_moving (K : Kind P) (σ₀ : St P) (hl : σ₀.locked = false) (v : ℝ) (hv : 0 < v) (ws : List P) (os : List (Op P)) (ho : ∀ o ∈ os, o.During) :
    Moving K σ₀.now v σ₀.value ws (under K σ₀ v ws os) :=
  exec_moving os ho (activate_moving K σ₀ hl v hv ws).1

theorem read_eq (K : Kind P) (σ₀ : St P) (hl : σ₀.locked = false) (v : ℝ) (hv : 0 < v) (ws : List P) (os : List (Op P)) (ho : ∀ o ∈ os, o.During) :
    (step K (under K σ₀ v ws os) .read).2 = (onPath K (under K σ₀ v ws os) ⟨σ₀.now, v, ws, some (legs K v σ₀.value ws)⟩ (legs K v σ₀.value ws) σ₀.now).2 := by
  rw [step, read_moving (under_moving K σ₀ hl v hv ws os ho)]

/-- For any kind of location with straight legs. -/
theorem position {K : Kind P} {d : Q → Q → ℝ} {π : P → Q} {ok : P → Prop} (hS : Straight K d π ok) (ht : 0 ≤ K.tol) (σ₀ : St P) (hl : σ₀.locked = false) (v : ℝ) (hv : 0 < v) (ws : List P)
    (hok : ok σ₀.value) (hoks : ∀ w ∈ ws, ok w)
    (os : List (Op P)) (ho : ∀ o ∈ os, o.During) (e : ℝ) (he : e = (under K σ₀ v ws os).now - σ₀.now) (hpos : 0 < e)
    (hend : v * e ≤ pathLen d (π σ₀.value) (ws.map π))
    (hclear : ∀ pre post, ws = pre ++ post → pre ≠ [] → ¬ (pathLen d (π σ₀.value) (pre.map π) / v < e ∧ e ≤ pathLen d (π σ₀.value) (pre.map π) / v + K.tol)) :
    ∃ pre w post f, ws = pre ++ w :: post ∧ (step K (under K σ₀ v ws os) .read).2 = .loc (K.move (pre.getLastD σ₀.value) w f) ∧
      f * (d (π (pre.getLastD σ₀.value)) (π w)) = v * e - pathLen d (π σ₀.value) (pre.map π) ∧ 0 < d (π (pre.getLastD σ₀.value)) (π w) ∧
      At d (π σ₀.value) (ws.map π) (v * e) (π (K.move (pre.getLastD σ₀.value) w f)) ∧ 0 ≤ f ∧ f ≤ 1 := by
  rw [← hS.len] at hend
  obtain ⟨pre, w, post, g1, g2, g3, g4⟩ := first_leg K (fun a b => by rw [hS.dist]; exact hS.nonneg _ _) v hv e hpos σ₀.value ws (by rw [le_div_iff₀ hv]; linarith)
  obtain ⟨hat, hne⟩ := at_move hS v hv e σ₀.value pre w post (ok_last hok fun x hx => hoks x (by rw [g1]; simp [hx])) g2 g3
  have hdpos : 0 < K.dist w (pre.getLastD σ₀.value) / v :=
    lt_of_le_of_ne (div_nonneg (by rw [hS.dist]; exact hS.nonneg _ _) hv.le) (Ne.symm hne)
  refine ⟨pre, w, post, _, g1, ?_, ?_, ?_, by rw [g1]; exact hat, div_nonneg (by linarith) hdpos.le,
    (div_le_one hdpos).2 (by rw [len_snoc, add_div] at g2; linarith)⟩
  · rw [read_eq K σ₀ hl v hv ws os ho]
    conv_lhs => rw [show legs K v σ₀.value ws = legs K v σ₀.value (pre ++ w :: post) from by rw [g1]]
    rw [he] at g2 g3 g4 hclear hpos ⊢
    refine onPath_eq (by linarith) _ pre w post (by linarith) ?_ hne
    intro q r hq hc
    have h1 := g4 q r hq hc
    have h2 := hclear q (r ++ w :: post) (by rw [g1, hc]; simp) hq
    rw [← hS.len] at h2
    by_contra hn
    exact h2 ⟨h1, by linarith⟩
  · rw [← hS.dist, ← hS.len]
    have hD : K.dist w (pre.getLastD σ₀.value) ≠ 0 := fun hc => hne (by rw [hc, zero_div])
    field_simp
  · rw [← hS.dist]
    have h0 : 0 ≤ K.dist w (pre.getLastD σ₀.value) := by rw [hS.dist]; exact hS.nonneg _ _
    exact lt_of_le_of_ne h0 fun hc => hne (by rw [← hc, zero_div])

/-- **C18, the position (the part that holds exactly).** At time `e` after the start the location read is the point of the polyline
from the starting location through the waypoints at path length `v * e`, whatever was read before and whatever was assigned to the
location in between. Missing: the `10⁻¹²` time units after reaching a waypoint, when the next leg has not been taken up
(`c18_close_partial`). -/
theorem c18_position_partial (k : ℝ) (σ₀ : St Loc) (hl : σ₀.locked = false) (v : ℝ) (hv : 0 < v) (ws : List Loc) (os : List (Op Loc))
    (ho : ∀ o ∈ os, o.During) (e : ℝ) (he : e = (under (cartesian k) σ₀ v ws os).now - σ₀.now) (hpos : 0 < e)
    (hend : v * e ≤ pathLen euclid (σ₀.value.place k) (ws.map (Loc.place k)))
    (hclear : ∀ pre post, ws = pre ++ post → pre ≠ [] →
      ¬ (pathLen euclid (σ₀.value.place k) (pre.map (Loc.place k)) / v < e ∧ e ≤ pathLen euclid (σ₀.value.place k) (pre.map (Loc.place k)) / v + slack)) :
    ∃ X, (step (cartesian k) (under (cartesian k) σ₀ v ws os) .read).2 = .loc X ∧
      At euclid (σ₀.value.place k) (ws.map (Loc.place k)) (v * e) (X.place k) := by
  obtain ⟨pre, w, post, f, -, h1, -, -, h2, -⟩ := position (cartesian_straight k) (le_of_lt slack_pos) σ₀ hl v hv ws trivial (fun _ _ => trivial) os ho e he hpos hend hclear
  exact ⟨_, h1, h2⟩

/-- **C18, the start.** Until time passes, the location is the starting location. -/
theorem c18_start (K : Kind P) (σ₀ : St P) (hl : σ₀.locked = false) (v : ℝ) (hv : 0 < v) (ws : List P) (os : List (Op P)) (ho : ∀ o ∈ os, o.Looks)
    (he : (under K σ₀ v ws os).now = σ₀.now) : (step K (under K σ₀ v ws os) .read).2 = .loc σ₀.value := by
  have hd : ∀ o ∈ os, o.During := fun o h => by
    have := ho o h
    cases o <;> first | exact absurd this id | trivial
  have hv' : (under K σ₀ v ws os).value = σ₀.value := by
    obtain ⟨h1, -, h3, h4⟩ := activate_moving K σ₀ hl v hv ws
    unfold under at he ⊢
    rw [← h3]
    generalize (step K σ₀ (.activate v ws)).1 = τ at h1 h4 he
    clear h3
    have mono : ∀ (os : List (Op P)) (σ : St P), (∀ o ∈ os, o.During) → Moving K σ₀.now v σ₀.value ws σ → σ.now ≤ (exec K os σ).now := by
      intro os
      induction os with
      | nil => intro σ _ _; exact le_refl _
      | cons o os ih =>
        intro σ ho hm
        have ho' := ho o (List.mem_cons_self ..)
        refine le_trans ?_ (ih _ (fun o' h' => ho o' (List.mem_cons_of_mem _ h')) (step_moving hm o ho'))
        cases o with
        | activate s w => rw [activate_refused hm.locked]
        | deactivate => exact absurd ho' id
        | read => rw [step, read_moving hm]; exact (onPath_keeps K σ _ _ _ hm.act).2.1.ge
        | remaining => exact le_refl _
        | assign q => exact le_refl _
        | advance t =>
          simp only [step]
          split
          · assumption
          · exact le_refl _
    induction os generalizing τ with
    | nil => rfl
    | cons o os ih =>
      have ho' := ho o (List.mem_cons_self ..)
      have hd' := hd o (List.mem_cons_self ..)
      have hm := step_moving h1 o hd'
      have hn : (step K τ o).1.now = σ₀.now := le_antisymm (by rw [← he]; exact mono os _ (fun o' h' => hd o' (List.mem_cons_of_mem _ h')) hm) hm.later
      refine (ih (fun o' h' => ho o' (List.mem_cons_of_mem _ h')) (fun o' h' => hd o' (List.mem_cons_of_mem _ h')) _ hm hn he).trans ?_
      cases o with
      | activate s w => rw [activate_refused h1.locked]
      | deactivate => exact absurd ho' id
      | assign q => exact absurd ho' id
      | read => rw [step, read_moving h1]; exact (onPath_keeps K τ _ _ _ h1.act).2.2.2 h4
      | remaining => rfl
      | advance t =>
        simp only [step]
        split <;> rfl
  rw [read_eq K σ₀ hl v hv ws os hd]
  simp only [onPath, he, sub_self, lt_irrefl, if_false, if_true, hv']

/-- For any kind of location with straight legs: always within the slack. -/
theorem close {K : Kind P} {d : Q → Q → ℝ} {π : P → Q} {ok : P → Prop} (hS : Straight K d π ok) (ht : 0 ≤ K.tol) (σ₀ : St P) (hl : σ₀.locked = false) (v : ℝ) (hv : 0 < v)
    (w₁ : P) (ws : List P) (hok : ok σ₀.value) (hoks : ∀ w ∈ w₁ :: ws, ok w) (hfirst : 0 < d (π σ₀.value) (π w₁)) (os : List (Op P)) (ho : ∀ o ∈ os, o.During) (e : ℝ)
    (he : e = (under K σ₀ v (w₁ :: ws) os).now - σ₀.now) (hpos : 0 < e) (hend : v * e ≤ pathLen d (π σ₀.value) ((w₁ :: ws).map π)) :
    ∃ X Y, (step K (under K σ₀ v (w₁ :: ws) os) .read).2 = .loc X ∧ At d (π σ₀.value) ((w₁ :: ws).map π) (v * e) Y ∧ d (π X) Y ≤ 2 * v * K.tol := by
  have hend' := hend
  rw [← hS.len] at hend'
  have hend'' : e ≤ K.len σ₀.value (w₁ :: ws) / v := by rw [le_div_iff₀ hv]; linarith
  cases hg : getIndex K.tol e ((legs K v σ₀.value (w₁ :: ws)).map (·.time)) 0 0 with
  | none =>
    rcases getIndex_none _ _ _ _ _ _ _ hg with h | h
    · cases h
    · linarith
  | some r =>
    obtain ⟨j, b⟩ := r
    obtain ⟨pre, w, post, g1, -, -, g4, g5⟩ := getIndex_split _ _ _ _ _ _ _ _ _ hg
    simp only [zero_add] at g4 g5
    -- the leg is not empty
    have hokl : ok (pre.getLastD σ₀.value) := ok_last hok fun x hx => hoks x (by rw [g1]; simp [hx])
    have hsnoc := len_snoc K σ₀.value pre w
    have hlegpos : 0 < K.dist w (pre.getLastD σ₀.value) := by
      by_cases hp : pre = []
      · subst hp
        simp only [List.nil_append, List.cons.injEq] at g1
        rw [← g1.1, hS.dist]
        exact hfirst
      · have := g5 pre [] hp (by simp)
        rw [hsnoc, add_div] at g4
        by_contra hc
        have := div_nonpos_of_nonpos_of_nonneg (not_lt.1 hc) hv.le
        linarith
    have hread : (step K (under K σ₀ v (w₁ :: ws) os) .read).2 =
        .loc (K.move (pre.getLastD σ₀.value) w ((e - K.len σ₀.value pre / v) / (K.dist w (pre.getLastD σ₀.value) / v))) := by
      rw [read_eq K σ₀ hl v hv _ os ho]
      conv_lhs => rw [show legs K v σ₀.value (w₁ :: ws) = legs K v σ₀.value (pre ++ w :: post) from by rw [g1]]
      rw [he] at g4 g5 hpos ⊢
      exact onPath_eq (by linarith) _ pre w post g4 g5 (div_ne_zero hlegpos.ne' hv.ne')
    by_cases hcase : e ≤ K.len σ₀.value (pre ++ [w]) / v
    · -- on the leg
      have hlt : K.len σ₀.value pre / v < e := by
        by_cases hp : pre = []
        · subst hp; simpa [Kind.len, pathLen] using hpos
        · have := g5 pre [] hp (by simp); linarith
      have hat := (at_move hS v hv e σ₀.value pre w post hokl hcase hlt).1
      rw [← g1] at hat
      exact ⟨_, _, hread, hat, by rw [hS.self]; positivity⟩
    · -- past the waypoint, within the slack
      have hcase := not_le.1 hcase
      have hlen : v * e - K.len σ₀.value (pre ++ [w]) > 0 := by
        rw [div_lt_iff₀ hv] at hcase; linarith
      have hover : v * e - K.len σ₀.value (pre ++ [w]) ≤ v * K.tol := by
        have : e - K.tol ≤ K.len σ₀.value (pre ++ [w]) / v := by linarith
        rw [le_div_iff₀ hv] at this; linarith
      have htot : K.len σ₀.value (w₁ :: ws) = K.len σ₀.value (pre ++ [w]) + pathLen d (π w) (post.map π) := by
        rw [← hS.len, g1]
        simp only [Kind.len, pathLen_append, pathLen]; ring
      obtain ⟨Y, hY⟩ := at_exists hS w post (hoks w (by rw [g1]; simp)) (fun x hx => hoks x (by rw [g1]; simp [hx])) (v * e - K.len σ₀.value (pre ++ [w])) hlen (by linarith)
      have hY' : At d (π σ₀.value) ((w₁ :: ws).map π) (v * e) Y := by
        have := At.later (p := π σ₀.value) (pre := pre.map π) hY
        rw [show pre.map π ++ [π w] = (pre ++ [w]).map π by simp, ← hS.len,
          show pre.map π ++ π w :: post.map π = (w₁ :: ws).map π by rw [g1]; simp] at this
        rwa [show K.len σ₀.value (pre ++ [w]) + (v * e - K.len σ₀.value (pre ++ [w])) = v * e by ring] at this
      refine ⟨_, Y, hread, hY', ?_⟩
      have h1 := hY.dist_le hS.self hS.triangle
      have hf : 1 ≤ (e - K.len σ₀.value pre / v) / (K.dist w (pre.getLastD σ₀.value) / v) := by
        rw [one_le_div (div_pos hlegpos hv)]
        rw [hsnoc, add_div] at hcase; linarith
      have h2 := hS.beyond (pre.getLastD σ₀.value) w _ hokl hf
      have h3 : ((e - K.len σ₀.value pre / v) / (K.dist w (pre.getLastD σ₀.value) / v) - 1) *
          d (π (pre.getLastD σ₀.value)) (π w) = v * e - K.len σ₀.value (pre ++ [w]) := by
        rw [← hS.dist, hsnoc]
        field_simp
        ring
      rw [h3] at h2
      have := hS.triangle (π (K.move (pre.getLastD σ₀.value) w ((e - K.len σ₀.value pre / v) / (K.dist w (pre.getLastD σ₀.value) / v)))) (π w) Y
      have h2' : d (π (K.move (pre.getLastD σ₀.value) w ((e - K.len σ₀.value pre / v) / (K.dist w (pre.getLastD σ₀.value) / v)))) (π w) ≤ v * K.tol := by
        exact h2.trans hover
      linarith

/-- **C18, always within the slack.** Unless the first waypoint is where the actor already is, the location read at every time of the
movement is at most `2 * speed * 10⁻¹²` away from the point of the polyline at path length `v * e`. -/
theorem c18_close_partial (k : ℝ) (σ₀ : St Loc) (hl : σ₀.locked = false) (v : ℝ) (hv : 0 < v) (w₁ : Loc) (ws : List Loc)
    (hfirst : σ₀.value.place k ≠ w₁.place k) (os : List (Op Loc)) (ho : ∀ o ∈ os, o.During) (e : ℝ)
    (he : e = (under (cartesian k) σ₀ v (w₁ :: ws) os).now - σ₀.now) (hpos : 0 < e)
    (hend : v * e ≤ pathLen euclid (σ₀.value.place k) ((w₁ :: ws).map (Loc.place k))) :
    ∃ X Y, (step (cartesian k) (under (cartesian k) σ₀ v (w₁ :: ws) os) .read).2 = .loc X ∧
      At euclid (σ₀.value.place k) ((w₁ :: ws).map (Loc.place k)) (v * e) Y ∧ euclid (X.place k) Y ≤ 2 * v * slack := by
  exact close (cartesian_straight k) slack_pos.le σ₀ hl v hv w₁ ws trivial (fun _ _ => trivial)
    (lt_of_le_of_ne (euclid_nonneg _ _) fun hc => hfirst (euclid_eq_zero hc.symm)) os ho e he hpos hend

/-- For any kind of location with straight legs: arrival. -/
theorem arrival {K : Kind P} {d : Q → Q → ℝ} {π : P → Q} {ok : P → Prop} (hS : Straight K d π ok) (hslack : 0 ≤ K.tol) (σ₀ : St P) (hl : σ₀.locked = false) (v : ℝ) (hv : 0 < v)
    (pre : List P) (w : P) (post : List P) (hok : ok (pre.getLastD σ₀.value)) (hleg : v * K.tol < d (π (pre.getLastD σ₀.value)) (π w)) (os : List (Op P)) (ho : ∀ o ∈ os, o.During)
    (he : (under K σ₀ v (pre ++ w :: post) os).now - σ₀.now = pathLen d (π σ₀.value) ((pre ++ [w]).map π) / v) :
    ∃ X, (step K (under K σ₀ v (pre ++ w :: post) os) .read).2 = .loc X ∧ d (π X) (π w) = 0 := by
  have hd0 : ∀ a b, 0 ≤ K.dist a b := fun a b => by rw [hS.dist]; exact hS.nonneg _ _
  have hd1 : ∀ a b, 0 ≤ (fun a b => K.dist b a) a b := fun a b => hd0 b a
  rw [← hS.len, len_snoc, add_div] at he
  have hd : K.dist w (pre.getLastD σ₀.value) = d (π (pre.getLastD σ₀.value)) (π w) := hS.dist _ _
  rw [← hd] at hleg
  have hdv : K.tol < K.dist w (pre.getLastD σ₀.value) / v := by rw [lt_div_iff₀ hv]; linarith
  have hn : ∀ q : List P, 0 ≤ K.len σ₀.value q / v := fun q => div_nonneg (pathLen_nonneg _ hd1 _ _) hv.le
  have hread := onPath_eq (K := K) (t0 := σ₀.now) (v := v) (p := σ₀.value) (σ := under K σ₀ v (pre ++ w :: post) os)
    (by have := hn pre; linarith) ⟨σ₀.now, v, pre ++ w :: post, some (legs K v σ₀.value (pre ++ w :: post))⟩ pre w post
    (by rw [he, len_snoc, add_div]; linarith)
    (by
      intro q r hq hc
      rw [he]
      have : K.len σ₀.value q / v ≤ K.len σ₀.value pre / v := by
        refine div_le_div_of_nonneg_right ?_ hv.le
        rw [hc]; exact pathLen_prefix _ hd1 _ _ _
      linarith)
    (by linarith)
  refine ⟨_, (read_eq K σ₀ hl v hv _ os ho).trans hread, ?_⟩
  rw [he, add_sub_cancel_left, div_self (by linarith)]
  have := hS.finish (pre.getLastD σ₀.value) w 1 hok zero_le_one (le_refl _)
  rw [sub_self, zero_mul] at this
  exact this

/-- **C18, arrival.** At the time at which the path to a waypoint has been covered, the location is that waypoint. Missing: legs that
take at most `10⁻¹²` time units (`c18_close_partial`). -/
theorem c18_arrival_partial (k : ℝ) (σ₀ : St Loc) (hl : σ₀.locked = false) (v : ℝ) (hv : 0 < v) (pre : List Loc) (w : Loc) (post : List Loc)
    (hleg : v * slack < euclid ((pre.getLastD σ₀.value).place k) (w.place k)) (os : List (Op Loc)) (ho : ∀ o ∈ os, o.During)
    (he : (under (cartesian k) σ₀ v (pre ++ w :: post) os).now - σ₀.now = pathLen euclid (σ₀.value.place k) ((pre ++ [w]).map (Loc.place k)) / v) :
    ∃ X, (step (cartesian k) (under (cartesian k) σ₀ v (pre ++ w :: post) os) .read).2 = .loc X ∧ X.place k = w.place k := by
  obtain ⟨X, h1, h2⟩ := arrival (cartesian_straight k) slack_pos.le σ₀ hl v hv pre w post trivial hleg os ho he
  exact ⟨X, h1, euclid_eq_zero h2⟩

theorem distLoop_eq (sub : P → P → ℝ) (p : P) (ws : List P) (d : ℝ) : distLoop sub p ws d = d + pathLen (fun a w => sub w a) p ws := by
  induction ws generalizing p d with
  | nil => simp [distLoop, pathLen]
  | cons w ws ih => simp only [distLoop, ih, pathLen]; ring

/-- **C18, the travel time.** An actor that travels for the time given by `waypoint_time_and_dist` is at its last waypoint, and the
distance given is the length of the path. -/
theorem c18_travel_time_partial (k : ℝ) (σ₀ : St Loc) (hl : σ₀.locked = false) (v : ℝ) (hv : 0 < v) (pre : List Loc) (w : Loc)
    (hleg : v * slack < euclid ((pre.getLastD σ₀.value).place k) (w.place k)) (os : List (Op Loc)) (ho : ∀ o ∈ os, o.During)
    (he : (under (cartesian k) σ₀ v (pre ++ [w]) os).now = σ₀.now + (timeAndDist (Loc.sub k) σ₀.value (pre ++ [w]) v).1) :
    (∃ X, (step (cartesian k) (under (cartesian k) σ₀ v (pre ++ [w]) os) .read).2 = .loc X ∧ X.place k = w.place k) ∧
      (timeAndDist (Loc.sub k) σ₀.value (pre ++ [w]) v).2 = pathLen euclid (σ₀.value.place k) ((pre ++ [w]).map (Loc.place k)) := by
  have hd : (timeAndDist (Loc.sub k) σ₀.value (pre ++ [w]) v).2 = pathLen euclid (σ₀.value.place k) ((pre ++ [w]).map (Loc.place k)) := by
    simp only [timeAndDist, distLoop_eq, zero_add]
    exact (cartesian_straight k).len _ _
  refine ⟨c18_arrival_partial k σ₀ hl v hv pre w [] hleg os ho ?_, hd⟩
  rw [he, ← hd]; simp only [timeAndDist]; ring

/-- **C18, looking does not change the motion.** Two actors on the same movement read the same location at the same time, whatever was
read, asked for or assigned before. -/
theorem c18_reads (K : Kind P) (σ₀ : St P) (hl : σ₀.locked = false) (v : ℝ) (hv : 0 < v) (ws : List P) (os os' : List (Op P))
    (ho : ∀ o ∈ os, o.During) (ho' : ∀ o ∈ os', o.During) (hnow : (under K σ₀ v ws os).now = (under K σ₀ v ws os').now) (hpos : σ₀.now < (under K σ₀ v ws os).now) :
    (step K (under K σ₀ v ws os) .read).2 = (step K (under K σ₀ v ws os') .read).2 ∧
      (step K (under K σ₀ v ws os) .remaining).2 = (step K (under K σ₀ v ws os') .remaining).2 := by
  constructor
  · rw [read_eq K σ₀ hl v hv ws os ho, read_eq K σ₀ hl v hv ws os' ho']
    simp only [onPath]
    rw [← hnow, if_neg (by linarith), if_neg (by linarith), if_neg (fun hc => by linarith), if_neg (fun hc => by linarith)]
    cases getIndex K.tol ((under K σ₀ v ws os).now - σ₀.now) ((legs K v σ₀.value ws).map (·.time)) 0 0 with
    | none => rfl
    | some r =>
      obtain ⟨i, b⟩ := r
      cases hg : (legs K v σ₀.value ws)[i]? with
      | none => simp only [hg]
      | some leg =>
        simp only [hg]
        split <;> rfl
  · simp only [step, remaining, (under_moving K σ₀ hl v hv ws os ho).act, (under_moving K σ₀ hl v hv ws os' ho').act, hnow]

/-- **C18, the end of a movement.** When a movement is ended, the actor stays where it is: every later read gives the location that a
read at the end would have given, until something is assigned or a new movement starts, which starts there. -/
theorem c18_stop (K : Kind P) (σ₀ : St P) (hl : σ₀.locked = false) (v : ℝ) (hv : 0 < v) (ws : List P) (os os' : List (Op P)) (ho : ∀ o ∈ os, o.During)
    (hpos : σ₀.now < (under K σ₀ v ws os).now) (X : P) (hX : (step K (under K σ₀ v ws os) .read).2 = .loc X) (ho' : ∀ o ∈ os', o.Looks)
    (hno : ∀ s w, Op.activate s w ∉ os') :
    (step K (exec K (.deactivate :: os') (under K σ₀ v ws os)) .read).2 = .loc X ∧
      (exec K (.deactivate :: os') (under K σ₀ v ws os)).locked = false ∧ (exec K (.deactivate :: os') (under K σ₀ v ws os)).value = X := by
  have hm := under_moving K σ₀ hl v hv ws os ho
  have hd : (step K (under K σ₀ v ws os) .deactivate).1 = { (under K σ₀ v ws os) with value := X, act := none, locked := false } := by
    rw [read_eq K σ₀ hl v hv ws os ho] at hX
    have hr : read K { (under K σ₀ v ws os) with locked := false } =
        ({ (under K σ₀ v ws os) with value := X, locked := false }, .loc X) := by
      have hp : (onPath K { (under K σ₀ v ws os) with locked := false } ⟨σ₀.now, v, ws, some (legs K v σ₀.value ws)⟩ (legs K v σ₀.value ws) σ₀.now) =
          ({ (under K σ₀ v ws os) with value := X, locked := false }, .loc X) := by
        simp only [onPath] at hX ⊢
        rw [if_neg (by linarith), if_neg (fun hc => by linarith)] at hX ⊢
        cases hgi : getIndex K.tol ((under K σ₀ v ws os).now - σ₀.now) ((legs K v σ₀.value ws).map (·.time)) 0 0 with
        | none => simp only [hgi] at hX; cases hX
        | some r =>
          obtain ⟨i, b⟩ := r
          simp only [hgi] at hX ⊢
          cases hg : (legs K v σ₀.value ws)[i]? with
          | none => simp only [hg] at hX; cases hX
          | some leg =>
            simp only [hg] at hX ⊢
            split at hX
            · cases hX
            · rename_i hne
              rw [if_neg hne]
              simp only [Out.loc.injEq] at hX
              rw [hX, hm.act]
      have hread : ∀ τ : St P, τ.act = some ⟨σ₀.now, v, ws, some (legs K v σ₀.value ws)⟩ →
          read K τ = onPath K τ ⟨σ₀.now, v, ws, some (legs K v σ₀.value ws)⟩ (legs K v σ₀.value ws) σ₀.now := fun τ h => by simp only [read, h]
      exact (hread { (under K σ₀ v ws os) with locked := false } hm.act).trans hp
    simp only [step, hm.locked, if_true, hr]
  have hrest : ∀ (os' : List (Op P)) (τ : St P), (∀ o ∈ os', o.Looks) → (∀ s w, Op.activate s w ∉ os') → τ.act = none → τ.locked = false → τ.value = X →
      (exec K os' τ).act = none ∧ (exec K os' τ).locked = false ∧ (exec K os' τ).value = X := by
    intro os'
    induction os' with
    | nil => intro τ _ _ h1 h2 h3; exact ⟨h1, h2, h3⟩
    | cons o os' ih =>
      intro τ ho hno h1 h2 h3
      have ho1 := ho o (List.mem_cons_self ..)
      have ih := fun τ' => ih τ' (fun o' h' => ho o' (List.mem_cons_of_mem _ h')) fun s w h => hno s w (List.mem_cons_of_mem _ h)
      cases o with
      | activate s w => exact absurd (List.mem_cons_self ..) (hno s w)
      | deactivate => exact absurd ho1 id
      | assign q => exact absurd ho1 id
      | read =>
        have : (step K τ .read).1 = τ := by simp only [step, read, h1]
        simp only [exec, this]; exact ih τ h1 h2 h3
      | remaining => exact ih τ h1 h2 h3
      | advance t =>
        simp only [exec, step]
        split
        · exact ih _ h1 h2 h3
        · exact ih _ h1 h2 h3
  obtain ⟨h1, h2, h3⟩ := hrest os' (step K (under K σ₀ v ws os) .deactivate).1 ho' hno (by rw [hd]) (by rw [hd]) (by rw [hd])
  refine ⟨?_, h2, h3⟩
  show (read K (exec K os' (step K (under K σ₀ v ws os) .deactivate).1)).2 = .loc X
  simp only [read, h1, h3]

/-- **C18, the remaining waypoints (as they are).** A waypoint is reported as remaining exactly until `10⁻¹²` time units after it has
been reached. Missing: the full statement says that it is not reported once reached, see `c18_reached_remaining`. -/
theorem c18_remaining_partial (k : ℝ) (σ₀ : St Loc) (hl : σ₀.locked = false) (v : ℝ) (hv : 0 < v) (ws : List Loc) (hws : ws ≠ []) (os : List (Op Loc))
    (ho : ∀ o ∈ os, o.During) (e : ℝ) (he : e = (under (cartesian k) σ₀ v ws os).now - σ₀.now)
    (hend : v * e ≤ pathLen euclid (σ₀.value.place k) (ws.map (Loc.place k))) :
    ∃ gone left, ws = gone ++ left ∧ (step (cartesian k) (under (cartesian k) σ₀ v ws os) .remaining).2 = .list left ∧
      ∀ pre w post, ws = pre ++ w :: post →
        (pre.length < gone.length ↔ pathLen euclid (σ₀.value.place k) ((pre ++ [w]).map (Loc.place k)) / v + slack < e) := by
  have hS := cartesian_straight k
  have htol : (cartesian k).tol = slack := rfl
  rw [← hS.len] at hend
  have hend'' : e ≤ (cartesian k).len σ₀.value ws / v := by rw [le_div_iff₀ hv]; linarith
  cases hg : getIndex (cartesian k).tol e ((legs (cartesian k) v σ₀.value ws).map (·.time)) 0 0 with
  | none =>
    rcases getIndex_none _ _ _ _ _ _ _ hg with h | h
    · exact absurd h hws
    · have := slack_pos; rw [htol] at h; linarith
  | some r =>
    obtain ⟨j, b⟩ := r
    obtain ⟨pre, w, post, g1, g2, -, g4, g5⟩ := getIndex_split _ _ _ _ _ _ _ _ _ hg
    simp only [zero_add] at g2 g4 g5
    rw [htol] at g4 g5
    refine ⟨pre, w :: post, g1, ?_, ?_⟩
    · have hm := under_moving (cartesian k) σ₀ hl v hv ws os ho
      rw [he] at hg
      simp only [step, remaining, hm.act, hg, g2]
      rw [g1]; simp
    · intro pre' w' post' hsplit
      rw [← hS.len]
      have hmono : ∀ q r : List Loc, (cartesian k).len σ₀.value q / v ≤ (cartesian k).len σ₀.value (q ++ r) / v := fun q r =>
        div_le_div_of_nonneg_right (pathLen_prefix _ (fun a b => Real.sqrt_nonneg _) _ _ _) hv.le
      constructor
      · intro hlt
        have hp : ∃ r, pre = (pre' ++ [w']) ++ r := by
          have h1 : (pre' ++ [w']) <+: ws := ⟨post', by rw [hsplit]; simp⟩
          have h2 : pre <+: ws := ⟨w :: post, g1.symm⟩
          obtain ⟨r, hr⟩ := List.prefix_of_prefix_length_le h1 h2 (by simp; omega)
          exact ⟨r, hr.symm⟩
        obtain ⟨r, hr⟩ := hp
        exact g5 _ r (by simp) hr
      · intro hlt
        by_contra hc
        have hp : ∃ r, pre' ++ [w'] = (pre ++ [w]) ++ r := by
          have h1 : (pre' ++ [w']) <+: ws := ⟨post', by rw [hsplit]; simp⟩
          have h2 : (pre ++ [w]) <+: ws := ⟨post, by rw [g1]; simp⟩
          obtain ⟨r, hr⟩ := List.prefix_of_prefix_length_le h2 h1 (by simp; omega)
          exact ⟨r, hr.symm⟩
        obtain ⟨r, hr⟩ := hp
        have := hmono (pre ++ [w]) r
        rw [← hr] at this
        linarith

/-- **C18 is violated: a waypoint just reached is reported as remaining.** At the very time at which the actor is at `w`, the remaining
waypoints still contain it. -/
theorem c18_reached_remaining (k : ℝ) (σ₀ : St Loc) (hl : σ₀.locked = false) (v : ℝ) (hv : 0 < v) (pre : List Loc) (w : Loc) (post : List Loc) (os : List (Op Loc))
    (ho : ∀ o ∈ os, o.During)
    (he : (under (cartesian k) σ₀ v (pre ++ w :: post) os).now - σ₀.now = pathLen euclid (σ₀.value.place k) ((pre ++ [w]).map (Loc.place k)) / v) :
    ∃ l, (step (cartesian k) (under (cartesian k) σ₀ v (pre ++ w :: post) os) .remaining).2 = .list (l ++ w :: post) := by
  obtain ⟨gone, left, h1, h2, h3⟩ := c18_remaining_partial k σ₀ hl v hv (pre ++ w :: post) (by simp) os ho _ rfl (by
    rw [he, mul_div_cancel₀ _ hv.ne']
    rw [show (pre ++ w :: post).map (Loc.place k) = (pre ++ [w]).map (Loc.place k) ++ post.map (Loc.place k) by simp]
    exact pathLen_prefix _ euclid_nonneg _ _ _)
  have h4 := h3 pre w post rfl
  rw [he] at h4
  have hlen : ¬ pre.length < gone.length := fun hc => by have := h4.1 hc; have := slack_pos; linarith
  obtain ⟨r, hr⟩ := List.prefix_of_prefix_length_le (⟨left, h1.symm⟩ : gone <+: pre ++ w :: post) (⟨w :: post, rfl⟩ : pre <+: pre ++ w :: post) (by omega)
  rw [← hr, List.append_assoc] at h1
  have := List.append_cancel_left h1
  exact ⟨r, by rw [h2, this]⟩

/-- **C18 is violated: a movement whose first waypoint is the place where the actor is** cannot be read in the first `10⁻¹²` time
units (division by zero). -/
theorem c18_zero_leg (k : ℝ) (σ₀ : St Loc) (hl : σ₀.locked = false) (v : ℝ) (hv : 0 < v) (w : Loc) (ws : List Loc) (hw : w.place k = σ₀.value.place k) (os : List (Op Loc))
    (ho : ∀ o ∈ os, o.During) (h0 : σ₀.now < (under (cartesian k) σ₀ v (w :: ws) os).now) (h1 : (under (cartesian k) σ₀ v (w :: ws) os).now ≤ σ₀.now + slack) :
    (step (cartesian k) (under (cartesian k) σ₀ v (w :: ws) os) .read).2 = .error := by
  have hd : (cartesian k).dist w σ₀.value = 0 := by rw [(cartesian_straight k).dist, hw, euclid_self]
  rw [read_eq (cartesian k) σ₀ hl v hv _ os ho]
  have hi := getIndex_eq (cartesian k) v ((under (cartesian k) σ₀ v (w :: ws) os).now - σ₀.now) σ₀.value [] w ws
    (by
      have : (cartesian k).tol = slack := rfl
      simp only [List.nil_append, Kind.len, pathLen, hd, this]
      simp only [add_zero, zero_div]; linarith)
    (by intro q r hq hc; simp at hc; exact absurd hc.1 hq) 0 0
  rw [zero_add, List.nil_append] at hi
  have hg := legs_get (cartesian k) v σ₀.value [] w ws
  simp only [List.length_nil, List.nil_append, List.getLastD_nil, hd, zero_div] at hg hi
  simp only [onPath]
  rw [if_neg (by linarith), if_neg (fun hc => by linarith), hi]
  simp only [hg, zero_add, if_true]

/-! ### Geodetic locations -/

/-- An earth model whose distance is that of a geometry, and whose functions fit together for starts with `ok`: going a part of the distance along the
bearing to a place gives a place at that part of the distance, and the rest of the distance away from the target; going too far, one is not farther
from the target than one went too far. -/
structure Earth.Fits (E : Earth) (ok : ℝ × ℝ → Prop) : Prop where
  nonneg : ∀ a b, 0 ≤ E.dist a b
  self : ∀ a, E.dist a a = 0
  symm : ∀ a b, E.dist a b = E.dist b a
  triangle : ∀ a b c, E.dist a c ≤ E.dist a b + E.dist b c
  start : ∀ a b f, ok a → 0 ≤ f → f ≤ 1 → E.dist a (E.point a (E.bearing a b) (f * E.dist a b)) = f * E.dist a b
  finish : ∀ a b f, ok a → 0 ≤ f → f ≤ 1 → E.dist (E.point a (E.bearing a b) (f * E.dist a b)) b = (1 - f) * E.dist a b
  beyond : ∀ a b f, ok a → 1 ≤ f → E.dist (E.point a (E.bearing a b) (f * E.dist a b)) b ≤ (f - 1) * E.dist a b

/-- Where a geodetic location is, in degrees. -/
noncomputable def Geo.ll (g : Geo) : ℝ × ℝ := if g.rad then (g.lat * 180 / Real.pi, g.lon * 180 / Real.pi) else (g.lat, g.lon)

/-- The numbers stored. -/
def Geo.raw (g : Geo) : ℝ × ℝ := (g.lat, g.lon)

theorem Geo.raw_eq {g : Geo} (h : g.rad = false) : g.raw = g.ll := by simp [Geo.raw, Geo.ll, h]

theorem raw_map {ws : List Geo} (h : ∀ w ∈ ws, w.rad = false) : ws.map Geo.raw = ws.map Geo.ll := List.map_congr_left fun w hw => Geo.raw_eq (h w hw)

theorem Geo.toDegrees_eq (g : Geo) : (g.toDegrees.lat, g.toDegrees.lon) = g.ll := by
  unfold Geo.toDegrees Geo.ll
  cases g.rad
  · rfl
  · simp [mul_div_assoc]

theorem geodetic_straight (E : Earth) {ok : ℝ × ℝ → Prop} (h : E.Fits ok) : Straight (geodetic E) E.dist Geo.raw fun g => ok g.raw :=
  ⟨fun _ _ => rfl, h.nonneg, h.self, h.triangle, fun a w f ho h0 h1 => h.start a.raw w.raw f ho h0 h1, fun a w f ho h0 h1 => h.finish a.raw w.raw f ho h0 h1,
    fun a w f ho h1 => h.beyond a.raw w.raw f ho h1⟩

/-- A location read during a movement is in degrees. -/
theorem geodetic_degrees (E : Earth) (σ₀ : St Geo) (hl : σ₀.locked = false) (v : ℝ) (hv : 0 < v) (ws : List Geo) (os : List (Op Geo)) (ho : ∀ o ∈ os, o.During)
    (hnow : σ₀.now < (under (geodetic E) σ₀ v ws os).now) (X : Geo) (hX : (step (geodetic E) (under (geodetic E) σ₀ v ws os) .read).2 = .loc X) : X.rad = false := by
  rw [read_eq (geodetic E) σ₀ hl v hv ws os ho] at hX
  simp only [onPath] at hX
  rw [if_neg (by linarith), if_neg (fun hc => by linarith)] at hX
  split at hX
  · cases hX
  · split at hX
    · cases hX
    · split at hX
      · cases hX
      · cases hX; rfl

/-- **C18 for geodetic locations in degrees**, for every earth model whose functions fit together: the position is the point of the great-circle
path at path length `v * e`, and the altitude changes in proportion to the length covered of the leg. Missing: the `10⁻⁴` time units
after reaching a waypoint; locations in radians (`c18_radians`). -/
theorem c18_geodetic_partial (E : Earth) (ok : ℝ × ℝ → Prop) (hE : E.Fits ok) (σ₀ : St Geo) (hl : σ₀.locked = false) (v : ℝ) (hv : 0 < v) (ws : List Geo)
    (hdeg : σ₀.value.rad = false) (hdegs : ∀ w ∈ ws, w.rad = false) (hok : ok σ₀.value.ll) (hoks : ∀ w ∈ ws, ok w.ll) (os : List (Op Geo))
    (ho : ∀ o ∈ os, o.During) (e : ℝ) (he : e = (under (geodetic E) σ₀ v ws os).now - σ₀.now) (hpos : 0 < e)
    (hend : v * e ≤ pathLen E.dist σ₀.value.ll (ws.map Geo.ll))
    (hclear : ∀ pre post, ws = pre ++ post → pre ≠ [] →
      ¬ (pathLen E.dist σ₀.value.ll (pre.map Geo.ll) / v < e ∧ e ≤ pathLen E.dist σ₀.value.ll (pre.map Geo.ll) / v + 1 / 10 ^ 4)) :
    ∃ X, (step (geodetic E) (under (geodetic E) σ₀ v ws os) .read).2 = .loc X ∧ At E.dist σ₀.value.ll (ws.map Geo.ll) (v * e) X.ll ∧
      ∃ pre w post, ws = pre ++ w :: post ∧ pathLen E.dist σ₀.value.ll (pre.map Geo.ll) ≤ v * e ∧ v * e ≤ pathLen E.dist σ₀.value.ll ((pre ++ [w]).map Geo.ll) ∧
        (X.alt - (pre.getLastD σ₀.value).alt) * E.dist (pre.getLastD σ₀.value).ll w.ll =
          (w.alt - (pre.getLastD σ₀.value).alt) * (v * e - pathLen E.dist σ₀.value.ll (pre.map Geo.ll)) := by
  have hpre : ∀ pre post, ws = pre ++ post → pre.map Geo.raw = pre.map Geo.ll := fun pre post h =>
    raw_map fun w hw => hdegs w (by rw [h]; exact List.mem_append_left _ hw)
  obtain ⟨pre, w, post, f, h0, h1, h2, h3, h4, f0, f1⟩ := position (geodetic_straight E hE) (by show (0 : ℝ) ≤ 1 / 10 ^ 4; positivity) σ₀ hl v hv ws
    (by rw [Geo.raw_eq hdeg]; exact hok) (fun w hw => by rw [Geo.raw_eq (hdegs w hw)]; exact hoks w hw) os ho e he hpos
    (by rw [Geo.raw_eq hdeg, raw_map hdegs]; exact hend)
    (fun pre post h hne => by rw [Geo.raw_eq hdeg, hpre pre post h]; exact hclear pre post h hne)
  have e1 := hpre pre _ h0
  have hw : w.rad = false := hdegs w (by rw [h0]; simp)
  have hlast : (pre.getLastD σ₀.value).rad = false := ok_last (ok := fun g : Geo => g.rad = false) hdeg fun w hw => hdegs w (by rw [h0]; exact List.mem_append_left _ hw)
  rw [Geo.raw_eq hlast, Geo.raw_eq hw] at h2 h3
  rw [Geo.raw_eq hdeg, e1] at h2
  rw [Geo.raw_eq hdeg, raw_map hdegs] at h4
  refine ⟨_, h1, h4, pre, w, post, h0, ?_, ?_, ?_⟩
  · have := mul_nonneg f0 h3.le
    linarith
  · have : f * E.dist (pre.getLastD σ₀.value).ll w.ll ≤ 1 * E.dist (pre.getLastD σ₀.value).ll w.ll := mul_le_mul_of_nonneg_right f1 h3.le
    have e2 : pathLen E.dist σ₀.value.ll ((pre ++ [w]).map Geo.ll) = pathLen E.dist σ₀.value.ll (pre.map Geo.ll) + E.dist (pre.getLastD σ₀.value).ll w.ll := by
      rw [List.map_append, pathLen_append, ← getLastD_map Geo.ll]
      simp [pathLen]
    rw [e2]; linarith
  rw [← h2]
  simp only [geodetic]; ring

/-- **C18 for geodetic locations in degrees, always within the slack.** -/
theorem c18_geodetic_close_partial (E : Earth) (ok : ℝ × ℝ → Prop) (hE : E.Fits ok) (σ₀ : St Geo) (hl : σ₀.locked = false) (v : ℝ) (hv : 0 < v) (w₁ : Geo) (ws : List Geo)
    (hdeg : σ₀.value.rad = false) (hdegs : ∀ w ∈ w₁ :: ws, w.rad = false)
    (hok : ok σ₀.value.ll) (hoks : ∀ w ∈ w₁ :: ws, ok w.ll) (hfirst : 0 < E.dist σ₀.value.ll w₁.ll) (os : List (Op Geo)) (ho : ∀ o ∈ os, o.During) (e : ℝ)
    (he : e = (under (geodetic E) σ₀ v (w₁ :: ws) os).now - σ₀.now) (hpos : 0 < e) (hend : v * e ≤ pathLen E.dist σ₀.value.ll ((w₁ :: ws).map Geo.ll)) :
    ∃ X Y, (step (geodetic E) (under (geodetic E) σ₀ v (w₁ :: ws) os) .read).2 = .loc X ∧
      At E.dist σ₀.value.ll ((w₁ :: ws).map Geo.ll) (v * e) Y ∧ E.dist X.ll Y ≤ 2 * v * (1 / 10 ^ 4) := by
  obtain ⟨X, Y, h1, h2, h3⟩ := close (geodetic_straight E hE) (by show (0 : ℝ) ≤ 1 / 10 ^ 4; positivity) σ₀ hl v hv w₁ ws
    (by rw [Geo.raw_eq hdeg]; exact hok) (fun w hw => by rw [Geo.raw_eq (hdegs w hw)]; exact hoks w hw)
    (by rw [Geo.raw_eq hdeg, Geo.raw_eq (hdegs w₁ (by simp))]; exact hfirst) os ho e he hpos (by rw [Geo.raw_eq hdeg, raw_map hdegs]; exact hend)
  rw [Geo.raw_eq hdeg, raw_map hdegs] at h2
  rw [Geo.raw_eq (geodetic_degrees E σ₀ hl v hv _ os ho (by linarith) X h1)] at h3
  exact ⟨X, Y, h1, h2, h3⟩

/-- **C18 for geodetic locations in degrees, arrival.** -/
theorem c18_geodetic_arrival_partial (E : Earth) (ok : ℝ × ℝ → Prop) (hE : E.Fits ok) (σ₀ : St Geo) (hl : σ₀.locked = false) (v : ℝ) (hv : 0 < v) (pre : List Geo) (w : Geo)
    (post : List Geo) (hdeg : σ₀.value.rad = false) (hdegs : ∀ x ∈ pre ++ [w], x.rad = false)
    (hok : ok (pre.getLastD σ₀.value).ll) (hleg : v * (1 / 10 ^ 4) < E.dist (pre.getLastD σ₀.value).ll w.ll) (os : List (Op Geo)) (ho : ∀ o ∈ os, o.During)
    (he : (under (geodetic E) σ₀ v (pre ++ w :: post) os).now - σ₀.now = pathLen E.dist σ₀.value.ll ((pre ++ [w]).map Geo.ll) / v) :
    ∃ X, (step (geodetic E) (under (geodetic E) σ₀ v (pre ++ w :: post) os) .read).2 = .loc X ∧ E.dist X.ll w.ll = 0 := by
  have hw : w.rad = false := hdegs w (by simp)
  have hlast : (pre.getLastD σ₀.value).rad = false := ok_last (ok := fun g : Geo => g.rad = false) hdeg fun w hw => hdegs w (List.mem_append_left _ hw)
  obtain ⟨X, h1, h2⟩ := arrival (geodetic_straight E hE) (by show (0 : ℝ) ≤ 1 / 10 ^ 4; positivity) σ₀ hl v hv pre w post
    (by rw [Geo.raw_eq hlast]; exact hok) (by rw [Geo.raw_eq hlast, Geo.raw_eq hw]; exact hleg) os ho (by rw [Geo.raw_eq hdeg, raw_map hdegs]; exact he)
  have hlen : pathLen E.dist σ₀.value.ll (pre.map Geo.ll) + E.dist (pre.getLastD σ₀.value).ll w.ll = pathLen E.dist σ₀.value.ll ((pre ++ [w]).map Geo.ll) := by
    rw [List.map_append, pathLen_append, getLastD_map]; simp [pathLen]
  have hpos : 0 < pathLen E.dist σ₀.value.ll ((pre ++ [w]).map Geo.ll) / v := by
    have := pathLen_nonneg E.dist hE.nonneg σ₀.value.ll (pre.map Geo.ll)
    have : 0 < E.dist (pre.getLastD σ₀.value).ll w.ll := lt_of_le_of_lt (by positivity) hleg
    rw [← hlen]; positivity
  rw [Geo.raw_eq hw, Geo.raw_eq (geodetic_degrees E σ₀ hl v hv _ os ho (by linarith) X h1)] at h2
  exact ⟨X, h1, h2⟩

/-- **C18 for geodetic locations in degrees, the travel time.** -/
theorem c18_geodetic_travel_time_partial (E : Earth) (ok : ℝ × ℝ → Prop) (hE : E.Fits ok) (σ₀ : St Geo) (hl : σ₀.locked = false) (v : ℝ) (hv : 0 < v) (pre : List Geo) (w : Geo)
    (hdeg : σ₀.value.rad = false) (hdegs : ∀ x ∈ pre ++ [w], x.rad = false)
    (hok : ok (pre.getLastD σ₀.value).ll) (hleg : v * (1 / 10 ^ 4) < E.dist (pre.getLastD σ₀.value).ll w.ll) (os : List (Op Geo)) (ho : ∀ o ∈ os, o.During)
    (he : (under (geodetic E) σ₀ v (pre ++ [w]) os).now = σ₀.now + (timeAndDist (Geo.sub E) σ₀.value (pre ++ [w]) v).1) :
    (∃ X, (step (geodetic E) (under (geodetic E) σ₀ v (pre ++ [w]) os) .read).2 = .loc X ∧ E.dist X.ll w.ll = 0) ∧
      (timeAndDist (Geo.sub E) σ₀.value (pre ++ [w]) v).2 = pathLen E.dist σ₀.value.ll ((pre ++ [w]).map Geo.ll) := by
  have hd : (timeAndDist (Geo.sub E) σ₀.value (pre ++ [w]) v).2 = pathLen E.dist σ₀.value.ll ((pre ++ [w]).map Geo.ll) := by
    simp only [timeAndDist, distLoop_eq, zero_add, pathLen_map]
    congr 1; funext a b
    rw [Geo.sub, Geo.toDegrees_eq, Geo.toDegrees_eq, hE.symm]
  refine ⟨c18_geodetic_arrival_partial E ok hE σ₀ hl v hv pre w [] hdeg hdegs hok hleg os ho ?_, hd⟩
  rw [he, ← hd]; simp only [timeAndDist]; ring

/-- **C18**: past the end of the path, by more than the slack, the location cannot be read. -/
theorem c18_past_end (K : Kind P) (hK : ∀ a b, 0 ≤ K.dist a b) (σ₀ : St P) (hl : σ₀.locked = false) (v : ℝ) (hv : 0 < v) (ht : 0 ≤ K.tol) (ws : List P) (os : List (Op P))
    (ho : ∀ o ∈ os, o.During) (he : pathLen (fun a w => K.dist w a) σ₀.value ws / v + K.tol < (under K σ₀ v ws os).now - σ₀.now) :
    (step K (under K σ₀ v ws os) .read).2 = .error := by
  have h0 := pathLen_nonneg (fun a w => K.dist w a) (fun a b => hK b a) σ₀.value ws
  have h1 : 0 ≤ pathLen (fun a w => K.dist w a) σ₀.value ws / v := by positivity
  rw [read_eq K σ₀ hl v hv ws os ho]
  simp only [onPath]
  rw [if_neg (by linarith), if_neg (fun hc => by linarith)]
  cases hg : getIndex K.tol ((under K σ₀ v ws os).now - σ₀.now) ((legs K v σ₀.value ws).map (·.time)) 0 0 with
  | none => rfl
  | some r =>
    obtain ⟨j, b⟩ := r
    obtain ⟨pre, w, post, h2, -, -, h3, -⟩ := getIndex_split K v _ σ₀.value ws 0 0 j b hg
    exfalso
    have h4 : K.len σ₀.value (pre ++ [w]) ≤ K.len σ₀.value ws := by
      rw [h2, show pre ++ w :: post = (pre ++ [w]) ++ post by simp]
      exact pathLen_prefix _ (fun a b => hK b a) _ _ _
    have h5 : K.len σ₀.value (pre ++ [w]) / v ≤ K.len σ₀.value ws / v := div_le_div_of_nonneg_right h4 hv.le
    have h6 : K.len σ₀.value ws = pathLen (fun a w => K.dist w a) σ₀.value ws := rfl
    rw [← h6] at he
    linarith

/-! ### A movement meeting the hypotheses: from the origin to (3, 4, 0) and up to (3, 4, 12) at speed 1 -/

noncomputable def rest : St Loc := ⟨0, ⟨0, 0, 0, false⟩, none, false⟩
def w1 : Loc := ⟨3, 4, 0, false⟩
def w2 : Loc := ⟨3, 4, 6, true⟩
def trip (t : ℝ) : List (Op Loc) := [.read, .advance 1, .read, .assign w2, .remaining, .advance t]

theorem trip_during (t : ℝ) : ∀ o ∈ trip t, o.During := by simp [trip, Op.During]

theorem step_advance (K : Kind P) (σ : St P) (t : ℝ) (h : σ.now ≤ t) : step K σ (.advance t) = ({ σ with now := t }, .done) := by
  simp only [step]; exact if_pos h

theorem trip_now (t : ℝ) (ht : 1 ≤ t) (ws : List Loc) : (under (cartesian 2) rest 1 ws (trip t)).now = t := by
  have h := activate_moving (cartesian 2) rest rfl 1 one_pos ws
  unfold under trip
  generalize (step (cartesian 2) rest (.activate 1 ws)).1 = σ at h
  obtain ⟨h1, -, -, h4⟩ := h
  have h2 := step_moving h1 .read trivial
  have n2 : (step (cartesian 2) σ .read).1.now = 0 := by rw [step, read_moving h1, (onPath_keeps _ σ _ _ _ h1.act).2.1, h4]; rfl
  have h3 := step_moving h2 (.advance 1) trivial
  have n3 : (step (cartesian 2) (step (cartesian 2) σ .read).1 (.advance 1)).1.now = 1 := by
    rw [step_advance _ _ _ (by rw [n2]; norm_num)]
  have n4 : (step (cartesian 2) (step (cartesian 2) (step (cartesian 2) σ .read).1 (.advance 1)).1 .read).1.now = 1 := by
    rw [step, read_moving h3, (onPath_keeps _ _ _ _ _ h3.act).2.1, n3]
  simp only [exec]
  generalize (step (cartesian 2) (step (cartesian 2) (step (cartesian 2) σ .read).1 (.advance 1)).1 .read).1 = τ at n4
  rw [step_advance _ _ _ (show (step (cartesian 2) (step (cartesian 2) τ (.assign w2)).1 .remaining).1.now ≤ t by simp only [step]; rw [n4]; exact ht)]

theorem len1 : pathLen euclid (rest.value.place 2) ([w1].map (Loc.place 2)) = 5 := by
  simp only [List.map_cons, List.map_nil, pathLen, euclid, Loc.place, rest, w1]
  norm_num
  rw [show (25 : ℝ) = 5 ^ 2 by norm_num, Real.sqrt_sq (by norm_num)]

theorem len2 : pathLen euclid (rest.value.place 2) ([w1, w2].map (Loc.place 2)) = 17 := by
  have h := len1
  have : euclid (w1.place 2) (w2.place 2) = 12 := by
    simp only [euclid, Loc.place, w1, w2]
    norm_num
    rw [show (144 : ℝ) = 12 ^ 2 by norm_num, Real.sqrt_sq (by norm_num)]
  simp only [List.map_cons, List.map_nil, pathLen, add_zero] at h ⊢
  rw [h, this]; norm_num

theorem slack_lt : slack < 1 := by unfold slack; norm_num

example : ∃ X, (step (cartesian 2) (under (cartesian 2) rest 1 [w1, w2] (trip 10)) .read).2 = .loc X ∧
    At euclid (rest.value.place 2) ([w1, w2].map (Loc.place 2)) (1 * 10) (X.place 2) := by
  refine c18_position_partial 2 rest rfl 1 one_pos [w1, w2] (trip 10) (trip_during 10) 10 ?_ (by norm_num) (by rw [len2]; norm_num) ?_
  · rw [trip_now 10 (by norm_num)]; simp [rest]
  · intro pre post h hne
    have := slack_lt
    match pre, post, h, hne with
    | [a], _, h, _ =>
      simp only [List.singleton_append, List.cons.injEq] at h
      rw [← h.1, len1]; intro hc; linarith [hc.2]
    | [a, b], _, h, _ =>
      simp only [List.cons_append, List.nil_append, List.cons.injEq] at h
      rw [← h.1, ← h.2.1, len2]; intro hc; linarith [hc.1]

example : ∃ X, (step (cartesian 2) (under (cartesian 2) rest 1 ([] ++ w1 :: [w2]) (trip 5)) .read).2 = .loc X ∧ X.place 2 = w1.place 2 := by
  refine c18_arrival_partial 2 rest rfl 1 one_pos [] w1 [w2] ?_ (trip 5) (trip_during 5) ?_
  · have h := len1
    simp only [List.map_cons, List.map_nil, pathLen, add_zero] at h
    have := slack_lt
    simp only [List.getLastD_nil, h]; linarith
  · rw [trip_now 5 (by norm_num), List.nil_append, len1]; simp [rest]

example : ∃ l, (step (cartesian 2) (under (cartesian 2) rest 1 ([] ++ w1 :: [w2]) (trip 5)) .remaining).2 = .list (l ++ w1 :: [w2]) := by
  refine c18_reached_remaining 2 rest rfl 1 one_pos [] w1 [w2] (trip 5) (trip_during 5) ?_
  rw [trip_now 5 (by norm_num), List.nil_append, len1]; simp [rest]

example : ∃ X Y, (step (cartesian 2) (under (cartesian 2) rest 1 (w1 :: [w2]) (trip 10)) .read).2 = .loc X ∧
    At euclid (rest.value.place 2) ((w1 :: [w2]).map (Loc.place 2)) (1 * 10) Y ∧ euclid (X.place 2) Y ≤ 2 * 1 * slack := by
  refine c18_close_partial 2 rest rfl 1 one_pos w1 [w2] ?_ (trip 10) (trip_during 10) 10 ?_ (by norm_num) (by rw [len2]; norm_num)
  · simp [rest, w1, Loc.place]
  · rw [trip_now 10 (by norm_num)]; simp [rest]

/-- A flat "earth" whose functions fit together: one-dimensional, with signs for bearings. -/
noncomputable def line : Earth := ⟨fun a b => |b.1 - a.1|, fun a b => SignType.sign (b.1 - a.1), fun a s d => (a.1 + s * d, 0)⟩

theorem line_fits : line.Fits fun _ => True where
  nonneg _ _ := abs_nonneg _
  self _ := by simp [line]
  symm _ _ := abs_sub_comm _ _
  triangle a b c := by simp only [line]; rw [add_comm]; exact abs_sub_le _ _ _
  beyond a b f _ h1 := by
    simp only [line]
    rw [show b.1 - (a.1 + ((SignType.sign (b.1 - a.1) : SignType) : ℝ) * (f * |b.1 - a.1|)) = (b.1 - a.1) - f * (((SignType.sign (b.1 - a.1) : SignType) : ℝ) * |b.1 - a.1|) by ring,
      sign_mul_abs, show b.1 - a.1 - f * (b.1 - a.1) = -((f - 1) * (b.1 - a.1)) by ring, abs_neg, abs_mul, abs_of_nonneg (by linarith)]
  start a b f _ h0 _ := by
    simp only [line]
    rw [show a.1 + ((SignType.sign (b.1 - a.1) : SignType) : ℝ) * (f * |b.1 - a.1|) - a.1 = f * (((SignType.sign (b.1 - a.1) : SignType) : ℝ) * |b.1 - a.1|) by ring,
      sign_mul_abs, abs_mul, abs_of_nonneg h0]
  finish a b f _ _ h1 := by
    simp only [line]
    rw [show b.1 - (a.1 + ((SignType.sign (b.1 - a.1) : SignType) : ℝ) * (f * |b.1 - a.1|)) = (b.1 - a.1) - f * (((SignType.sign (b.1 - a.1) : SignType) : ℝ) * |b.1 - a.1|) by ring,
      sign_mul_abs, show b.1 - a.1 - f * (b.1 - a.1) = (1 - f) * (b.1 - a.1) by ring, abs_mul, abs_of_nonneg (by linarith)]

example : (step (cartesian 2) (under (cartesian 2) rest 1 (⟨0, 0, 0, true⟩ :: [w1]) [.advance slack]) .read).2 = .error := by
  have hn : (under (cartesian 2) rest 1 (⟨0, 0, 0, true⟩ :: [w1]) [.advance slack]).now = slack := by
    have h := (activate_moving (cartesian 2) rest rfl 1 one_pos (⟨0, 0, 0, true⟩ :: [w1])).2.2.2
    simp only [under, exec]
    rw [step_advance _ _ _ (by rw [h]; exact slack_pos.le)]
  refine c18_zero_leg 2 rest rfl 1 one_pos ⟨0, 0, 0, true⟩ [w1] ?_ [.advance slack] (by simp [Op.During]) ?_ ?_
  · simp [rest, Loc.place]
  · rw [hn]; exact slack_pos
  · rw [hn]; simp [rest]

example : ∃ X, (step (geodetic line) (under (geodetic line) ⟨0, ⟨0, 0, 0, false⟩, none, false⟩ 1 [⟨3, 0, 90, false⟩] [.advance 2]) .read).2 = .loc X ∧
    At line.dist (0, 0) [(3, 0)] (1 * 2) X.ll := by
  have hn : (under (geodetic line) ⟨0, ⟨0, 0, 0, false⟩, none, false⟩ 1 [⟨3, 0, 90, false⟩] [.advance 2]).now = 2 := by
    have h := (activate_moving (geodetic line) ⟨0, ⟨0, 0, 0, false⟩, none, false⟩ rfl 1 one_pos [⟨3, 0, 90, false⟩]).2.2.2
    simp only [under, exec]
    rw [step_advance _ _ _ (by rw [h]; norm_num)]
  obtain ⟨X, h1, h2, -⟩ := c18_geodetic_partial line (fun _ => True) line_fits ⟨0, ⟨0, 0, 0, false⟩, none, false⟩ rfl 1 one_pos [⟨3, 0, 90, false⟩] rfl (by simp) trivial (fun _ _ => trivial) [.advance 2]
    (by simp [Op.During]) 2 (by rw [hn]; norm_num) (by norm_num) (by simp [pathLen, line, Geo.ll]; norm_num) (by
      intro pre post h hne
      match pre, h, hne with
      | [a], h, _ =>
        simp only [List.singleton_append, List.cons.injEq] at h
        rw [← h.1]
        simp [pathLen, line, Geo.ll]; intro hc; norm_num at hc
      | a :: b :: l, h, _ => simp at h)
  exact ⟨X, h1, h2⟩

end Verif.Path
