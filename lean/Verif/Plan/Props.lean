import Verif.Plan.Run

/-!
# C78: the rehearsal of a network predicts what the loop does

`a` is the actor, and `b` the understudy, when the loop and the rehearsal begin. `names` are the tasks listed for the rehearsal and `stop` is the end task.

What is missing from the full statement (see `Limits.lean` for networks where it is false): what `Verif.Predict.Plain` excludes, tasks that look at the queue or change it while listed tasks are still to come,
listed tasks the network does not allow, decisions rehearsed otherwise than made, and tasks that are listed and queued at the time of the rehearsal.
-/

namespace Verif.Plan

open Verif.Predict

variable {K : Type} [Field K] [LinearOrder K] [IsStrictOrderedRing K] {A Op Val : Type}
variable {M : Methods K (Agent A) Op Val} {N : Net K Op Val} {stop : Option String} {E : List String → K → Agent A → Agent A → Prop}

theorem nfollows (hE : Matched M stop E) (hN : Honest N) {t0 : K} {b : Agent A} {names : List String} (hp : Plain M N t0 b names stop) (gs : List (Turn K Op)) (hgs : ∀ g ∈ gs, Harmless M g) (n : Nat)
    (s : LSt K A Val) (h : NFollows M N E (rehearse M N t0 b names stop n) s) :
    (∃ m, NFollows M N E (rehearse M N t0 b names stop m) (loop M N s gs)) ∨ ∃ gs1 gs2 m, gs = gs1 ++ gs2 ∧ AtEnd N E (rehearse M N t0 b names stop m) (loop M N s gs1) := by
  induction gs generalizing s n with
  | nil => exact .inl ⟨n, h⟩
  | cons g gs ih =>
    have hgs' := fun x hx => hgs x (List.mem_cons_of_mem _ hx)
    have next : ∀ m, NFollows M N E (rehearse M N t0 b names stop m) (lstep M N g s) →
        (∃ m, NFollows M N E (rehearse M N t0 b names stop m) (loop M N s (g :: gs))) ∨
          ∃ gs1 gs2 m, g :: gs = gs1 ++ gs2 ∧ AtEnd N E (rehearse M N t0 b names stop m) (loop M N s gs1) := fun m hm => by
      rcases ih hgs' m _ hm with hm | ⟨gs1, gs2, k, h1, h2⟩
      · exact .inl hm
      · exact .inr ⟨g :: gs1, gs2, k, by rw [h1]; rfl, h2⟩
    rcases h.step hE hN (hp n) g (hgs g (List.mem_cons_self ..)) with h1 | h1 | h1 | h1
    · exact next n h1
    · exact next (n + 1) h1
    · exact .inr ⟨[], g :: gs, n + 1, rfl, h1⟩
    · exact .inr ⟨[g], gs, n + 1, rfl, h1⟩

/-- The loop begins with the first listed task. -/
def Begins (a : Agent A) (first : Option String) (u : String) : Prop := a.2.head? = some u ∨ a.2 = [] ∧ first = some u

theorem start_eq (t0 : K) (a : Agent A) (q : List (Item K)) (first : Option String) (u : String) (h : Begins a first u) :
    start (Val := Val) N t0 a q first = begin_ N ⟨{ Predict.init t0 a q with status := .finished }, "", .ended, []⟩ u := by
  obtain ⟨a, l⟩ := a
  unfold start
  rcases h with h | ⟨h1, h2⟩
  · cases l with
    | nil => cases h
    | cons x l =>
      have : x = u := by simpa using h
      subst this
      rfl
  · have h1 : l = [] := h1
    subst h1 h2
    rfl

/-- Every state of the loop goes with one of the rehearsal, or the loop has come to the end of the rehearsal before. -/
theorem c78_predicts_partial (hE : Matched M stop E) (hN : Honest N) (t0 : K) (a b : Agent A) (u : String) (left : List String) (first : Option String) (hu : Begins a first u)
    (h0 : E left t0 (a.1, a.2.tail) b) (hf : Feasible N u left) (hp : Plain M N t0 b (u :: left) stop) (q : List (Item K)) (hq : Before t0 q) (gs : List (Turn K Op)) (hgs : ∀ g ∈ gs, Harmless M g) :
    (∃ n, Along E (rehearse M N t0 b (u :: left) stop n) (loop M N (start N t0 a q first) gs)) ∨
      ∃ gs1 gs2 n, gs = gs1 ++ gs2 ∧ AtEnd N E (rehearse M N t0 b (u :: left) stop n) (loop M N (start N t0 a q first) gs1) := by
  have hI : Idle ({ Predict.init t0 a q with status := .finished } : St K (Agent A) Val) :=
    ⟨rfl, ((Follows.init (M := M) (Eqv := fun _ _ _ => True) t0 a a trivial q hq).free rfl).2.2.1⟩
  have hb : NFollows M N E (rbegin N stop ⟨rinit t0 b, "", [], .over, [], none⟩ u left) (start N t0 a q first) ∨
      AtEnd N E (rbegin N stop ⟨rinit t0 b, "", [], .over, [], none⟩ u left) (start N t0 a q first) := by
    rw [start_eq t0 a q first u hu]
    exact NFollows.begin rfl rfl rfl hI u left hf (hu.imp id And.left) h0
  have hr : rehearse M N t0 b (u :: left) stop 0 = rbegin N stop ⟨rinit t0 b, "", [], .over, [], none⟩ u left := rfl
  rcases hb with hb | hb
  · rcases nfollows hE hN hp gs hgs 0 _ (by rw [hr]; exact hb) with ⟨m, hm⟩ | hm
    · exact .inl ⟨m, hm.along⟩
    · exact .inr hm
  · exact .inr ⟨[], gs, 0, rfl, by rw [hr]; exact hb⟩

/-! ### The clock of the rehearsal -/

theorem rbegin_time (r : RNSt K A Val) (hr : r.base.routine = none) (u : String) (left : List String) : (rbegin N stop r u left).base.time = r.base.time := by
  unfold rbegin
  split
  · rfl
  · simp [rinit, RSt.time, hr]

theorem rbegin_routine (r : RNSt K A Val) (hr : r.base.routine = none) (u : String) (left : List String) : (rbegin N stop r u left).base.routine = none := by
  unfold rbegin
  split
  · exact hr
  · rfl

/-- Between the tasks there is no routine. -/
def Tidy (r : RNSt K A Val) : Prop := (r.phase = .ended ∨ r.phase = .over → r.base.routine = none) ∧ (r.phase = .running → r.base.status = .running)

theorem rbegin_tidy (r : RNSt K A Val) (hr : r.base.routine = none) (u : String) (left : List String) : Tidy (rbegin N stop r u left) := by
  refine ⟨fun _ => rbegin_routine r hr u left, fun h => ?_⟩
  unfold rbegin at h ⊢
  split
  · rename_i hs; rw [if_pos hs] at h; cases h
  · rfl

theorem nstep_tidy (r : RNSt K A Val) (ih : Tidy r) : Tidy (nstep M N stop r) := by
  unfold nstep
  cases hph : r.phase with
  | running =>
    dsimp only
    refine ⟨fun h => ?_, fun h => ?_⟩
    · refine rstep_done M _ _ (ih.2 hph) ?_
      dsimp only at h
      unfold rphaseOf at h
      split at h
      · rcases h with h | h <;> cases h
      · assumption
      · rcases h with h | h <;> cases h
    · dsimp only at h
      unfold rphaseOf at h
      split at h
      · assumption
      · cases h
      · cases h
  | ended =>
    dsimp only
    have hr := ih.1 (.inl hph)
    unfold rproceed
    cases r.left with
    | cons u left =>
      dsimp only
      split
      · exact rbegin_tidy r hr u left
      · exact ⟨fun _ => hr, fun h => (nomatch h)⟩
    | nil =>
      dsimp only
      cases stop with
      | none => exact ⟨fun _ => hr, fun h => (nomatch h)⟩
      | some e =>
        dsimp only
        cases nextName N r.cur r.base.actor.2 with
        | none => exact ⟨fun _ => hr, fun h => (nomatch h)⟩
        | some u => exact rbegin_tidy { r with base := { r.base with actor := (r.base.actor.1, r.base.actor.2.tail) }, left := [] } hr u []
  | over => exact ih
  | dead => exact ih

theorem tidy (t0 : K) (b : Agent A) (names : List String) (n : Nat) : Tidy (rehearse M N t0 b names stop n) := by
  induction n with
  | zero =>
    unfold rehearse rstart
    cases names with
    | cons u left => exact rbegin_tidy _ rfl u left
    | nil => cases stop <;> exact ⟨fun _ => rfl, fun h => (nomatch h)⟩
  | succ n ih => exact nstep_tidy _ ih

theorem rehearse_time {t0 : K} {b : Agent A} {names : List String} (hp : Plain M N t0 b names stop) (n m : Nat) (h : n ≤ m) :
    (rehearse M N t0 b names stop n).base.time ≤ (rehearse M N t0 b names stop m).base.time := by
  induction m with
  | zero =>
    have : n = 0 := by omega
    rw [this]
  | succ m ih =>
    rcases Nat.lt_or_ge m n with hlt | hge
    · have : n = m + 1 := by omega
      rw [this]
    · refine (ih hge).trans ?_
      show _ ≤ (nstep M N stop (rehearse M N t0 b names stop m)).base.time
      have hro := (tidy (M := M) (N := N) (stop := stop) t0 b names m).1
      have hpm := hp m
      dsimp only at hpm
      generalize rehearse M N t0 b names stop m = r at hro hpm
      unfold nstep
      cases hph : r.phase with
      | running => exact rstep_time M _ _ (hpm hph)
      | ended =>
        dsimp only
        have hr := hro (.inl hph)
        unfold rproceed
        cases r.left with
        | cons u left =>
          dsimp only
          split
          · rw [rbegin_time r hr]
          · exact le_refl _
        | nil =>
          dsimp only
          cases stop with
          | none => exact le_refl _
          | some e =>
            dsimp only
            cases nextName N r.cur r.base.actor.2 with
            | none => exact le_refl _
            | some u =>
              exact (rbegin_time { r with base := { r.base with actor := (r.base.actor.1, r.base.actor.2.tail) }, left := [] } hr u []).ge
      | over => exact le_refl _
      | dead => exact le_refl _

theorem rehearse_stays {t0 : K} {b : Agent A} {names : List String} (n m : Nat) (h : n ≤ m) (hs : (rehearse M N t0 b names stop n).phase = .over ∨ (rehearse M N t0 b names stop n).phase = .dead) :
    rehearse M N t0 b names stop m = rehearse M N t0 b names stop n := by
  induction m with
  | zero =>
    have : n = 0 := by omega
    rw [this]
  | succ m ih =>
    rcases Nat.lt_or_ge m n with hlt | hge
    · have : n = m + 1 := by omega
      rw [this]
    · show nstep M N stop (rehearse M N t0 b names stop m) = _
      rw [ih hge]
      unfold nstep
      rcases hs with hs | hs <;> rw [hs]

/-- Where the rehearsal is over and the loop is past its time, the loop has come to its end: at that time, and with an actor like the understudy. -/
theorem c78_by_then_partial (hE : Matched M stop E) (hN : Honest N) (t0 : K) (a b : Agent A) (u : String) (left : List String) (first : Option String) (hu : Begins a first u)
    (h0 : E left t0 (a.1, a.2.tail) b) (hf : Feasible N u left) (hp : Plain M N t0 b (u :: left) stop) (q : List (Item K)) (hq : Before t0 q) (gs : List (Turn K Op)) (hgs : ∀ g ∈ gs, Harmless M g)
    (n : Nat) (hn : (rehearse M N t0 b (u :: left) stop n).phase = .over) (hlate : (rehearse M N t0 b (u :: left) stop n).base.now < (loop M N (start N t0 a q first) gs).base.now) :
    ∃ gs1 gs2, gs = gs1 ++ gs2 ∧ AtEnd N E (rehearse M N t0 b (u :: left) stop n) (loop M N (start N t0 a q first) gs1) := by
  rcases c78_predicts_partial hE hN t0 a b u left first hu h0 hf hp q hq gs hgs with ⟨m, hm⟩ | ⟨gs1, gs2, m, h1, h2⟩
  · exfalso
    have hnt : (rehearse M N t0 b (u :: left) stop n).base.time = (rehearse M N t0 b (u :: left) stop n).base.now := by
      simp [RSt.time, (tidy (M := M) (N := N) (stop := stop) t0 b (u :: left) n).1 (.inr hn)]
    -- the rehearsal has not come to its end
    have hm' : (rehearse M N t0 b (u :: left) stop m).phase ≠ .over ∧ ((loop M N (start N t0 a q first) gs).phase ≠ .dead →
        (loop M N (start N t0 a q first) gs).base.now ≤ (rehearse M N t0 b (u :: left) stop m).base.time) := by
      cases hph : (loop M N (start N t0 a q first) gs).phase with
      | starting => obtain ⟨k1, -, k3⟩ := hm.starting hph; exact ⟨by rw [k1]; simp, fun _ => k3.le⟩
      | running =>
        by_cases hw : (loop M N (start N t0 a q first) gs).base.waiting = none
        · obtain ⟨k1, -, k3⟩ := hm.executes hph hw; exact ⟨by rw [k1]; simp, fun _ => k3.le⟩
        · obtain ⟨k1, -, k3, -⟩ := hm.waits hph hw; exact ⟨by rw [k1]; simp, fun _ => k3⟩
      | ended => obtain ⟨k1, -, k3⟩ := hm.ended hph; exact ⟨by rw [k1]; simp, fun _ => k3.le⟩
      | dead => exact ⟨by rw [hm.dead hph]; simp, fun h => absurd rfl h⟩
    rcases Nat.le_total n m with hle | hle
    · rw [rehearse_stays n m hle (.inl hn), hn] at hm'
      exact hm'.1 rfl
    · by_cases hd : (loop M N (start N t0 a q first) gs).phase = .dead
      · have := rehearse_stays m n hle (.inr (hm.dead hd))
        rw [this, hm.dead hd] at hn
        cases hn
      · have := (hm'.2 hd).trans (rehearse_time hp m n hle)
        rw [hnt] at this
        exact absurd hlate (not_lt.2 this)
  · have he : rehearse M N t0 b (u :: left) stop m = rehearse M N t0 b (u :: left) stop n := by
      rcases Nat.le_total n m with hle | hle
      · exact rehearse_stays n m hle (.inl hn)
      · exact (rehearse_stays m n hle (.inl h2.over)).symm
    rw [he] at h2
    exact ⟨gs1, gs2, h1, h2⟩

/-! ## Two ways to use it -/

/-- The tasks may look at the queue and change it: one task is listed, the rehearsal goes on to an end task. -/
def Same (Eqv : K → A → A → Prop) (left : List String) (t : K) (x y : Agent A) : Prop := left = [] ∧ x.2 = y.2 ∧ Eqv t x.1 y.1

theorem c78_desk {M : Methods K A Op Val} {Eqv : K → A → A → Prop} (hM : Congruent M Eqv) (stop : Option String) : Matched (desk M) stop (Same Eqv) where
  congruent := fun left =>
    { later := fun t t' x y ht h => ⟨h.1, h.2.1, hM.later _ _ _ _ ht h.2.2⟩
      step := fun t o x y h => by
        obtain ⟨h1, h2, h3⟩ := h
        cases o with
        | act o =>
          obtain ⟨g1, g2⟩ := hM.step t o _ _ h3
          exact ⟨congrArg DVal.val g1, h1, h2, g2⟩
        | setQueue l =>
          simp only [desk]
          rw [← h2]
          split
          · exact ⟨rfl, h1, h2, h3⟩
          · exact ⟨rfl, h1, rfl, h3⟩
        | clearQueue => exact ⟨rfl, h1, rfl, h3⟩
        | getQueue => exact ⟨congrArg DVal.names h2, h1, h2, h3⟩
      read := fun t o x y ho h => by
        obtain ⟨h1, h2, h3⟩ := h
        cases o with
        | act o => exact ⟨h1, h2, hM.read t o _ _ ho h3⟩
        | setQueue l => exact ho.elim
        | clearQueue => exact ho.elim
        | getQueue => exact ⟨h1, h2, h3⟩ }
  listed := fun u left t x y h => by cases h.1
  after := fun _ t x y h => ⟨h.2.1, rfl, by show x.2.tail = y.2.tail; rw [h.2.1], h.2.2⟩

/-- The tasks do not look at the queue: those listed are queued for the actor, before what is queued for the understudy. -/
def Ahead (Eqv : K → A → A → Prop) (left : List String) (t : K) (x y : Agent A) : Prop := x.2 = left ++ y.2 ∧ Eqv t x.1 y.1

theorem c78_queue {M : Methods K A Op Val} {Eqv : K → A → A → Prop} (hM : Congruent M Eqv) (stop : Option String) : Matched (desk' M) stop (Ahead Eqv) where
  congruent := fun left =>
    { later := fun t t' x y ht h => ⟨h.1, hM.later _ _ _ _ ht h.2⟩
      step := fun t o x y h => by
        obtain ⟨g1, g2⟩ := hM.step t o _ _ h.2
        exact ⟨g1, h.1, g2⟩
      read := fun t o x y ho h => ⟨h.1, hM.read t o _ _ ho h.2⟩ }
  listed := fun u left t x y h => by
    refine ⟨by rw [h.1]; rfl, ?_, h.2⟩
    show x.2.tail = _
    rw [h.1]; rfl
  after := fun _ t x y h => by
    have h1 : x.2 = y.2 := h.1
    exact ⟨h1, by show x.2.tail = [] ++ y.2.tail; rw [h1]; rfl, h.2⟩

/-- A network rehearsed from its first task to an end task: the loop, started with that task and an empty queue, begins the end task at the time at which the rehearsal was over, after the same tasks at the same
times, with an actor that has the queue of the understudy and is like it. The tasks choose their ways with `set_task_queue`. -/
theorem c78_path_partial {M : Methods K A Op Val} {Eqv : K → A → A → Prop} (hM : Congruent M Eqv) {N : Net K (DOp Op) (DVal Val)} (hN : Honest N) (t0 : K) (a b : A) (h0 : Eqv t0 a b) (u e : String)
    (hp : Plain (desk M) N t0 (b, []) [u] (some e)) (q : List (Item K)) (hq : Before t0 q) (gs : List (Turn K (DOp Op))) (hgs : ∀ g ∈ gs, Harmless (desk M) g)
    (n : Nat) (hn : (rehearse (desk M) N t0 (b, []) [u] (some e) n).phase = .over)
    (hlate : (rehearse (desk M) N t0 (b, []) [u] (some e) n).base.now < (loop (desk M) N (start N t0 (a, []) q (some u)) gs).base.now) :
    ∃ gs1 gs2, gs = gs1 ++ gs2 ∧ AtEnd N (Same Eqv) (rehearse (desk M) N t0 (b, []) [u] (some e) n) (loop (desk M) N (start N t0 (a, []) q (some u)) gs1) :=
  c78_by_then_partial (c78_desk hM (some e)) hN t0 (a, []) (b, []) u [] (some u) (.inr ⟨rfl, rfl⟩) ⟨rfl, rfl, h0⟩ trivial hp q hq gs hgs n hn hlate

/-- Listed tasks, rehearsed and then queued: the loop ends the last of them at the time of the rehearsal, with an actor like the understudy. -/
theorem c78_listed_partial {M : Methods K A Op Val} {Eqv : K → A → A → Prop} (hM : Congruent M Eqv) {N : Net K Op Val} (hN : Honest N) (t0 : K) (a b : A) (h0 : Eqv t0 a b) (u : String) (left : List String)
    (hf : Feasible N u left) (hp : Plain (desk' M) N t0 (b, []) (u :: left) none) (q : List (Item K)) (hq : Before t0 q) (gs : List (Turn K Op)) (hgs : ∀ g ∈ gs, Harmless (desk' M) g)
    (n : Nat) (hn : (rehearse (desk' M) N t0 (b, []) (u :: left) none n).phase = .over)
    (hlate : (rehearse (desk' M) N t0 (b, []) (u :: left) none n).base.now < (loop (desk' M) N (start N t0 (a, u :: left) q none) gs).base.now) :
    ∃ gs1 gs2, gs = gs1 ++ gs2 ∧ AtEnd N (Ahead Eqv) (rehearse (desk' M) N t0 (b, []) (u :: left) none n) (loop (desk' M) N (start N t0 (a, u :: left) q none) gs1) :=
  c78_by_then_partial (c78_queue hM none) hN t0 (a, u :: left) (b, []) u left none (.inl rfl) ⟨(List.append_nil left).symm, h0⟩ hf hp q hq gs hgs n hn hlate

end Verif.Plan
