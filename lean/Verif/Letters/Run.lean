import Verif.Letters.Inv

/-! # Every operation keeps the log and the messages in order -/

namespace Verif.Letters

theorem nTries_eq {cfg : Cfg} (hr : 0 < cfg.rate) : nTries cfg = some (budget cfg) := by
  unfold nTries budget; rw [if_neg hr.ne']

theorem delay_pos {cfg : Cfg} (h : 0 < cfg.sendTime) : delay cfg = cfg.sendTime := max_eq_right h.le
theorem delay_zero {cfg : Cfg} (h : ¬ 0 < cfg.sendTime) : delay cfg = 0 := max_eq_left (not_lt.1 h)

/-- A process that arrives at its next node. -/
theorem arriveHop_inv {cfg : Cfg} {s : St} (h : Inv cfg s) {i : Nat} {p : Proc} (hp : s.procs[i]? = some p) {hop : Nat} {d : Rat} (hph : p.ph = .moving hop d)
    (hd : d = s.now) : Inv cfg (arriveHop cfg s i p hop) := by
  unfold arriveHop
  cases hc : cfg.routing with
  | none =>
    refine deliver_inv h hp .sent rfl fun sender hg ph hph' => ?_
    unfold Good at hg ⊢
    rw [hc, hph] at hg
    rw [hc]
    obtain ⟨g1, k, g2, g3, g4⟩ := hg
    have hS : Straight cfg sender p.dest p.born s.now (notes s.log p.id ++ [(s.now, .sent, p.curr, p.dest)]) :=
      ⟨k, g2, by rw [← g3, hd], by rw [g4, g1]⟩
    refine ⟨g1, ?_⟩
    rcases hph' with ⟨rfl, hst⟩ | ⟨st, rfl, hst⟩
    · exact ⟨hst, _, hS⟩
    · exact ⟨hst, hS⟩
  | some g =>
    obtain ⟨g, ord⟩ := g
    have x : Inv cfg (applied s i { p with curr := hop, failed := if g then p.failed else [], ph := .choosing s.now } none) := by
      refine h.apply (p' := { p with curr := hop, failed := if g then p.failed else [], ph := .choosing s.now }) hp ⟨rfl, rfl, rfl, rfl⟩ none (fun sender hg => ?_)
        (fun t ht => by simp only [due, Option.some.injEq] at ht; exact ht.le)
      unfold Good at hg ⊢
      rw [hc, hph] at hg
      rw [hc]
      simp only [Option.map_none, Option.toList_none, List.append_nil] at hg ⊢
      rw [← hd]
      exact hg
    convert x using 1
    simp [applied, setProc]

/-- A check of the link. -/
theorem check_inv {cfg : Cfg} (hr : 0 < cfg.rate) {s : St} (h : Inv cfg s) {i : Nat} {p : Proc} (hp : s.procs[i]? = some p) {hop n : Nat} {d : Rat}
    (hph : p.ph = .trying hop n d) (hd : d = s.now) : Inv cfg (check cfg s i p hop n) := by
  have hi : i < s.procs.length := (List.getElem?_eq_some_iff.1 hp).1
  unfold check
  rw [nTries_eq hr]
  simp only
  by_cases hb : blocked s p.curr hop = true
  · rw [if_pos hb]
    by_cases hn : (n : Int) = budget cfg
    · rw [if_pos hn, logAttempt_on h.on]
      unfold giveUp
      cases hc : cfg.routing with
      | none =>
        have x : Inv cfg (applied s i { p with ph := .dropped } (some (.stopped, p.curr, hop))) := by
          refine h.apply (p' := { p with ph := .dropped }) hp ⟨rfl, rfl, rfl, rfl⟩ _ (fun sender hg => ?_) (fun t ht => by simp [due] at ht)
          unfold Good at hg ⊢
          rw [hc, hph] at hg
          rw [hc]
          obtain ⟨g1, g2, g3, g4, g5⟩ := hg
          refine ⟨g1, n, hn, ?_⟩
          rw [← g4, hd]
          simp [g3, g1, g2]
        convert x using 1
        simp [applied, setProc, Event.final]
      | some g =>
        have x : Inv cfg (applied s i { p with failed := p.failed ++ [hop], ph := .choosing s.now } (some (.stopped, p.curr, hop))) := by
          refine h.apply (p' := { p with failed := p.failed ++ [hop], ph := .choosing s.now }) hp ⟨rfl, rfl, rfl, rfl⟩ _ (fun sender hg => ?_)
            (fun t ht => by simp only [due, Option.some.injEq] at ht; exact ht.le)
          unfold Good at hg ⊢
          rw [hc, hph] at hg
          rw [hc]
          obtain ⟨t, l', g1, g2, g3, g4⟩ := hg
          have w := Way.fail hop n hn g1
          rw [← g2, ← g3, hd] at w
          exact w
        convert x using 1
        simp [applied, setProc, Event.final]
    · rw [if_neg hn, logAttempt_on h.on, if_neg (not_lt.2 hr.le)]
      have x : Inv cfg (applied s i { p with ph := .trying hop (n + 1) (s.now + cfg.rate) } (some (.waiting, p.curr, hop))) := by
        refine h.apply (p' := { p with ph := .trying hop (n + 1) (s.now + cfg.rate) }) hp ⟨rfl, rfl, rfl, rfl⟩ _ (fun sender hg => ?_)
          (fun t ht => by simp only [due, Option.some.injEq] at ht; linarith)
        have hlast : ∀ j : Nat, (∀ j : Nat, j < n → (j : Int) ≠ budget cfg) → j < n + 1 → (j : Int) ≠ budget cfg := by
          intro j hj hlt
          rcases Nat.lt_succ_iff_lt_or_eq.1 hlt with h' | h'
          · exact hj j h'
          · rw [h']; exact hn
        unfold Good at hg ⊢
        rw [hph] at hg
        cases hc : cfg.routing with
        | none =>
          rw [hc] at hg
          obtain ⟨g1, g2, g3, g4, g5⟩ := hg
          refine ⟨g1, g2, ?_, ?_, fun j hj => hlast j g5 hj⟩
          · rw [waits_succ, ← g4, hd]; simp [g3, g1, g2]
          · rw [← hd, g4]; push_cast; ring
        | some g =>
          rw [hc] at hg
          obtain ⟨t, l', g1, g2, g3, g4⟩ := hg
          refine ⟨t, l', g1, ?_, ?_, fun j hj => hlast j g4 hj⟩
          · rw [waits_succ, ← g3, hd, g2]; simp
          · rw [← hd, g3]; push_cast; ring
      convert x using 1
      simp [applied, setProc, Event.final]
  · rw [if_neg hb]
    unfold pass
    cases hc : cfg.routing with
    | none =>
      simp only
      by_cases hs : 0 < cfg.sendTime
      · rw [if_pos hs]
        have x : Inv cfg (applied s i { p with ph := .moving hop (s.now + cfg.sendTime) } none) := by
          refine h.apply (p' := { p with ph := .moving hop (s.now + cfg.sendTime) }) hp ⟨rfl, rfl, rfl, rfl⟩ _ (fun sender hg => ?_)
            (fun t ht => by simp only [due, Option.some.injEq] at ht; linarith)
          unfold Good at hg ⊢
          rw [hc, hph] at hg
          rw [hc]
          obtain ⟨g1, g2, g3, g4, g5⟩ := hg
          exact ⟨g1, n, g5, by rw [← g4, delay_pos hs, hd], by simp [g3]⟩
        convert x using 1
        simp [applied, setProc]
      · rw [if_neg hs]
        unfold arriveHop
        rw [hc]
        refine deliver_inv h hp .sent rfl fun sender hg ph hph' => ?_
        unfold Good at hg ⊢
        rw [hc, hph] at hg
        rw [hc]
        obtain ⟨g1, g2, g3, g4, g5⟩ := hg
        have hS : Straight cfg sender p.dest p.born s.now (notes s.log p.id ++ [(s.now, .sent, p.curr, p.dest)]) :=
          ⟨n, g5, by rw [← g4, hd, delay_zero hs, add_zero], by rw [g3, g1]⟩
        refine ⟨g1, ?_⟩
        rcases hph' with ⟨rfl, hst⟩ | ⟨st, rfl, hst⟩
        · exact ⟨hst, _, hS⟩
        · exact ⟨hst, hS⟩
    | some g =>
      obtain ⟨g, ord⟩ := g
      simp only
      rw [logAttempt_on h.on]
      have way : ∀ sender, Good cfg sender p (notes s.log p.id) → Way cfg sender p.born hop (s.now + delay cfg) (notes s.log p.id ++ [(s.now, .moved, p.curr, hop)]) := by
        intro sender hg
        unfold Good at hg
        rw [hc, hph] at hg
        obtain ⟨t, l', g1, g2, g3, g4⟩ := hg
        have w := Way.move hop n g4 g1
        rw [← g2, ← g3, hd] at w
        exact w
      by_cases hs : 0 < cfg.sendTime
      · rw [if_pos hs]
        have x : Inv cfg (applied s i { p with ph := .moving hop (s.now + cfg.sendTime) } (some (.moved, p.curr, hop))) := by
          refine h.apply (p' := { p with ph := .moving hop (s.now + cfg.sendTime) }) hp ⟨rfl, rfl, rfl, rfl⟩ _ (fun sender hg => ?_)
            (fun t ht => by simp only [due, Option.some.injEq] at ht; linarith)
          have w := way sender hg
          rw [delay_pos hs] at w
          unfold Good
          rw [hc]
          exact w
        convert x using 1
        simp [applied, setProc, Event.final]
      · rw [if_neg hs]
        unfold arriveHop
        rw [hc]
        simp only
        have x : Inv cfg (applied s i { p with curr := hop, failed := if g then p.failed else [], ph := .choosing s.now } (some (.moved, p.curr, hop))) := by
          refine h.apply (p' := { p with curr := hop, failed := if g then p.failed else [], ph := .choosing s.now }) hp ⟨rfl, rfl, rfl, rfl⟩ _ (fun sender hg => ?_)
            (fun t ht => by simp only [due, Option.some.injEq] at ht; exact ht.le)
          have w := way sender hg
          rw [delay_zero hs, add_zero] at w
          unfold Good
          rw [hc]
          exact w
        convert x using 1
        simp [applied, setProc, Event.final]

/-- The head of the loop. -/
theorem choose_inv {cfg : Cfg} {s : St} (h : Inv cfg s) {i : Nat} {p : Proc} (hp : s.procs[i]? = some p) {d : Rat}
    (hph : p.ph = .choosing d) (hd : d = s.now) : Inv cfg (choose cfg s i p) := by
  unfold choose
  cases hc : cfg.routing with
  | none => exact h
  | some g =>
    obtain ⟨g, ord⟩ := g
    simp only
    have way : ∀ sender, Good cfg sender p (notes s.log p.id) → Way cfg sender p.born p.curr s.now (notes s.log p.id) := by
      intro sender hg
      unfold Good at hg
      rw [hc, hph] at hg
      rw [← hd]
      exact hg
    by_cases he : p.curr = p.dest
    · rw [if_pos he]
      refine deliver_inv h hp .reached rfl fun sender hg ph hph' => ?_
      have w := way sender hg
      rw [he] at w
      unfold Good
      rw [hc, he]
      rcases hph' with ⟨rfl, hst⟩ | ⟨st, rfl, hst⟩
      · exact ⟨hst, _, _, w, rfl⟩
      · exact ⟨hst, _, w, rfl⟩
    · rw [if_neg he]
      cases hsel : Routing.selectHop ord s.net p.curr p.dest p.failed with
      | none =>
        simp only
        rw [logAttempt_on h.on]
        have x : Inv cfg (applied s i { p with ph := .dropped } (some (.noRoute, p.curr, p.dest))) := by
          refine h.apply (p' := { p with ph := .dropped }) hp ⟨rfl, rfl, rfl, rfl⟩ _ (fun sender hg => ?_) (fun t ht => by simp [due] at ht)
          have w := way sender hg
          unfold Good
          rw [hc]
          exact ⟨_, _, w, he, rfl⟩
        convert x using 1
        simp [applied, setProc, Event.final]
      | some hop =>
        simp only
        have x : Inv cfg (applied s i { p with ph := .trying hop 0 s.now } none) := by
          refine h.apply (p' := { p with ph := .trying hop 0 s.now }) hp ⟨rfl, rfl, rfl, rfl⟩ _ (fun sender hg => ?_)
            (fun t ht => by simp only [due, Option.some.injEq] at ht; exact ht.le)
          have w := way sender hg
          unfold Good
          rw [hc]
          exact ⟨_, _, w, by simp [waits], by simp, fun j hj => absurd hj (Nat.not_lt_zero _)⟩
        convert x using 1
        simp [applied, setProc]

theorem notes_none {log : List Entry} {id : Nat} (h : ∀ e ∈ log, e.id ≠ id) : notes log id = [] := by
  unfold notes
  rw [List.filter_eq_nil_iff.2 (fun e he => by simpa using h e he)]
  rfl

theorem lastSent_none {log : List Entry} {ref : Nat} (h : ∀ e ∈ log, e.message ≠ ref) : lastSent log ref = none := by
  unfold lastSent
  rw [List.filter_eq_nil_iff.2 (fun e he => by simp [h e he])]
  rfl

theorem step_inv {cfg : Cfg} (hr : 0 < cfg.rate) {s : St} (h : Inv cfg s) (op : Op) (hop : On [op]) : Inv cfg (step cfg s op).1 := by
  cases op with
  | advance d =>
    simp only [step]
    split
    · rename_i hd
      obtain ⟨h0, hd⟩ := hd
      refine ⟨h.on, h.ids, fun e he => ?_, h.sorted, fun p hp => ?_, hd, fun ref m hm => ?_⟩
      · obtain ⟨p, g1, g2, g3⟩ := h.known e he
        exact ⟨p, g1, g2, by simp only; linarith⟩
      · obtain ⟨m, g1, g2, g3, g4, g5⟩ := h.good p hp
        exact ⟨m, g1, g2, g3, by simp only; linarith, g5⟩
      · obtain ⟨g1, g2, g3⟩ := h.stamps ref m hm
        exact ⟨g1, g2, by simp only; linarith⟩
    · exact h
  | make g source dest =>
    have key : ∀ c : Content, Inv cfg { s with heap := s.heap ++ [⟨source, c, dest, none, none, cfg.mode, s.now⟩] } := by
      intro c
      refine ⟨h.on, h.ids, h.known, h.sorted, fun p hp => ?_, h.late, fun ref m hm => ?_⟩
      · obtain ⟨m, g1, g2⟩ := h.good p hp
        exact ⟨m, by simp only; rw [List.getElem?_append_left (List.getElem?_eq_some_iff.1 g1).1]; exact g1, g2⟩
      · simp only at hm
        by_cases hl : ref < s.heap.length
        · rw [List.getElem?_append_left hl] at hm
          exact h.stamps ref m hm
        · rw [List.getElem?_append_right (not_lt.1 hl)] at hm
          have h0 : ref = s.heap.length := by
            have := (List.getElem?_eq_some_iff.1 hm).1
            simp at this
            omega
          subst h0
          simp at hm
          subst hm
          refine ⟨(lastSent_none fun e he => ?_).symm, rfl, le_rfl⟩
          obtain ⟨p, g1, g2, -⟩ := h.known e he
          obtain ⟨m, g3, -⟩ := h.good p (List.mem_of_getElem? g1)
          rw [g2]
          exact ((List.getElem?_eq_some_iff.1 g3).1).ne
    cases g with
    | message ref => exact h
    | text m => exact key _
    | dict d => exact key _
    | content c => exact key _
  | put ref =>
    simp only [step]
    split
    · exact h.same h.on rfl rfl rfl rfl
    · exact h
  | take =>
    simp only [step]
    split
    · exact h
    · rename_i ref r hinc
      split
      · exact h
      · rename_i m hm
        have hnew : ∀ e ∈ s.log, e.id < s.procs.length := by
          intro e he
          obtain ⟨p, g1, -⟩ := h.known e he
          exact (List.getElem?_eq_some_iff.1 g1).1
        generalize hph : (if cfg.routing.isSome then Ph.choosing s.now else Ph.trying m.dest 0 s.now) = ph
        refine ⟨h.on, fun i p hp => ?_, fun e he => ?_, h.sorted, fun p hp => ?_, fun p hp t ht => ?_, h.stamps⟩
        · simp only at hp
          by_cases hl : i < s.procs.length
          · rw [List.getElem?_append_left hl] at hp; exact h.ids i p hp
          · rw [List.getElem?_append_right (not_lt.1 hl)] at hp
            have h0 : i = s.procs.length := by
              have := (List.getElem?_eq_some_iff.1 hp).1
              simp at this
              omega
            subst h0
            simp at hp
            rw [← hp]
        · obtain ⟨p, g1, g2⟩ := h.known e he
          exact ⟨p, by simp only; rw [List.getElem?_append_left (hnew e he)]; exact g1, g2⟩
        · simp only at hp
          rcases List.mem_append.1 hp with hp | hp
          · exact h.good p hp
          · rw [List.mem_singleton] at hp
            subst hp
            refine ⟨m, hm, rfl, (h.stamps ref m hm).2.2, le_rfl, ?_⟩
            simp only
            rw [notes_none fun e he => (hnew e he).ne]
            unfold Good
            cases hc : cfg.routing with
            | none =>
              rw [hc] at hph
              simp only [Option.isSome_none, Bool.false_eq_true, if_false] at hph
              subst hph
              exact ⟨rfl, rfl, by simp [waits], by simp, fun j hj => absurd hj (Nat.not_lt_zero _)⟩
            | some g =>
              rw [hc] at hph
              simp only [Option.isSome_some, if_true] at hph
              subst hph
              exact .start
        · simp only at hp
          rcases List.mem_append.1 hp with hp | hp
          · exact h.late p hp t ht
          · rw [List.mem_singleton] at hp
            subst hp
            unfold due at ht
            split at hph <;> subst hph <;> simp only [Option.some.injEq] at ht <;> exact ht.le
  | resume i =>
    simp only [step]
    split
    · exact h
    · rename_i p hp
      split
      · rename_i hdue
        unfold due at hdue
        cases hph : p.ph with
        | choosing d => rw [hph] at hdue; exact choose_inv h hp hph (by simpa using hdue)
        | trying hop' n d => rw [hph] at hdue; exact check_inv hr h hp hph (by simpa using hdue)
        | moving hop' d => rw [hph] at hdue; exact arriveHop_inv h hp hph (by simpa using hdue)
        | putting _ _ => exact h
        | done => exact h
        | dropped => exact h
        | crashed => exact h
      · exact h
  | accept i =>
    simp only [step]
    split
    · exact h
    · rename_i p hp
      cases hph : p.ph with
      | putting st t0 =>
        simp only
        have x : Inv cfg (applied s i { p with ph := .done } none) := by
          refine h.apply (p' := { p with ph := .done }) hp ⟨rfl, rfl, rfl, rfl⟩ none (fun sender hg => ?_) (fun t ht => by simp [due] at ht)
          unfold Good at hg ⊢
          rw [hph] at hg
          cases hc : cfg.routing with
          | none => rw [hc] at hg; simp only [Option.map_none, Option.toList_none, List.append_nil]; exact ⟨hg.1, t0, hg.2.2⟩
          | some g => rw [hc] at hg; simp only [Option.map_none, Option.toList_none, List.append_nil]; exact ⟨t0, hg.2⟩
        convert x using 1
        simp [applied, setProc]
      | choosing _ => exact h
      | trying _ _ _ => exact h
      | moving _ _ => exact h
      | done => exact h
      | dropped => exact h
      | crashed => exact h
  | setDegraded b => exact h.same h.on rfl rfl rfl rfl
  | setLinks l => exact h.same h.on rfl rfl rfl rfl
  | setNodes l => exact h.same h.on rfl rfl rfl rfl
  | connect u v two => exact h.same h.on rfl rfl rfl rfl
  | setLogging b =>
    have hb : b = true := hop b (by simp)
    subst hb
    exact h.same rfl rfl rfl rfl rfl

theorem run_inv {cfg : Cfg} (hr : 0 < cfg.rate) (ops : List Op) : ∀ {s : St}, Inv cfg s → On ops → Inv cfg (run cfg s ops).1 := by
  induction ops with
  | nil => exact fun h _ => h
  | cons op r ih =>
    intro s h hon
    exact ih (step_inv hr h op fun b hb => hon b (by simp at hb; simp [hb])) fun b hb => hon b (List.mem_cons_of_mem _ hb)

end Verif.Letters
