import Verif.Routing.Spec

/-!
# The search finds a shortest path
-/

namespace Verif.Routing

variable {net : Net} {start goal : Nat}

/-- `p` is a path of `d` steps from `start` to `x`. -/
inductive PathTo (net : Net) (start : Nat) : List Nat → Nat → Nat → Prop
  | one : PathTo net start [start] start 0
  | snoc {p : List Nat} {x y d : Nat} : PathTo net start p x d → Link net x y → PathTo net start (p ++ [y]) y (d + 1)

theorem PathTo.route {p : List Nat} {x d : Nat} (h : PathTo net start p x d) : Route (Link net) d start x := by
  induction h with
  | one => exact .nil _
  | snoc _ e ih => exact ih.snoc e

theorem PathTo.hop {p : List Nat} {x d : Nat} (h : PathTo net start p x (d + 1)) :
    ∃ w, p[1]? = some w ∧ Link net start w ∧ Route (Link net) d w x := by
  induction d generalizing p x with
  | zero =>
    cases h with
    | snoc h' e =>
      cases h'
      exact ⟨x, rfl, e, .nil x⟩
  | succ d ih =>
    cases h with
    | snoc h' e =>
      obtain ⟨w, h1, h2, h3⟩ := ih h'
      refine ⟨w, ?_, h2, h3.snoc e⟩
      rw [List.getElem?_append_left]
      · exact h1
      · exact (List.getElem?_eq_some_iff.mp h1).1

/-- Scanning neighbours: either the goal is among them or they are all visited afterwards, the new ones queued. -/
theorem scan_spec (path : List Nat) (ns vis : List Nat) (q : List Entry) :
    (goal ∈ ns ∧ scan goal path ns vis q = .inl (path ++ [goal])) ∨
    (goal ∉ ns ∧ ∃ new : List Nat, ∃ vis', scan goal path ns vis q = .inr (vis', q ++ new.map fun n => (n, path ++ [n])) ∧
      (∀ x, x ∈ vis' ↔ x ∈ vis ∨ x ∈ ns) ∧ (∀ x, x ∈ vis' ↔ x ∈ vis ∨ x ∈ new) ∧ (∀ x ∈ new, x ∈ ns)) := by
  induction ns generalizing vis q with
  | nil => exact Or.inr ⟨by simp, [], vis, by simp [scan], by simp, by simp, by simp⟩
  | cons n r ih =>
    unfold scan
    by_cases h1 : n = goal
    · subst h1; exact Or.inl ⟨by simp, by simp⟩
    · rw [if_neg h1]
      by_cases h2 : n ∈ vis
      · rw [if_pos h2]
        rcases ih vis q with ⟨hg, he⟩ | ⟨hg, new, vis', he, h3, h4, h5⟩
        · exact Or.inl ⟨by simp [hg], he⟩
        · refine Or.inr ⟨by simp [hg, Ne.symm h1], new, vis', he, ?_, h4, fun x hx => by simp [h5 x hx]⟩
          intro x
          rw [h3, List.mem_cons]
          constructor
          · rintro (h | h)
            · exact Or.inl h
            · exact Or.inr (Or.inr h)
          · rintro (h | rfl | h)
            · exact Or.inl h
            · exact Or.inl h2
            · exact Or.inr h
      · rw [if_neg h2]
        rcases ih (n :: vis) (q ++ [(n, path ++ [n])]) with ⟨hg, he⟩ | ⟨hg, new, vis', he, h3, h4, h5⟩
        · exact Or.inl ⟨by simp [hg], he⟩
        · refine Or.inr ⟨by simp [hg, Ne.symm h1], n :: new, vis', ?_, ?_, ?_, ?_⟩
          · rw [he]; simp
          · intro x; rw [h3]; simp only [List.mem_cons]; grind
          · intro x; rw [h4]; simp only [List.mem_cons]; grind
          · intro x hx
            simp only [List.mem_cons] at hx ⊢
            exact hx.imp id (h5 x)

/-- Between two turns: the queue is the rest `A` of the nodes at distance `d` and the first `B` at `d + 1`. -/
structure Inv (net : Net) (start goal d : Nat) (A B : List Entry) (vis : List Nat) : Prop where
  pa : ∀ e ∈ A, PathTo net start e.2 e.1 d
  pb : ∀ e ∈ B, PathTo net start e.2 e.1 (d + 1)
  va : ∀ e ∈ A, e.1 ∈ vis
  vb : ∀ e ∈ B, e.1 ∈ vis
  near : ∀ m x, m ≤ d → Route (Link net) m start x → x ∈ vis
  next : ∀ x, Route (Link net) (d + 1) start x → x ∈ vis ∨ ∃ e ∈ A, Link net e.1 x
  only : ∀ x ∈ vis, (∃ m, m ≤ d ∧ Route (Link net) m start x) ∨ x ∈ B.map (·.1)
  goal : goal ∉ vis

theorem init_inv (h : start ≠ goal) : Inv net start goal 0 [(start, [start])] [] [start] where
  pa := by intro e he; simp only [List.mem_singleton] at he; subst he; exact .one
  pb := by simp
  va := by simp
  vb := by simp
  near := by
    intro m x hm hr
    have : m = 0 := by omega
    subst this
    cases hr; simp
  next := by
    intro x hr
    obtain ⟨y, h1, h2⟩ := hr.unsnoc
    cases h1
    exact Or.inr ⟨(start, [start]), by simp, h2⟩
  only := by
    intro x hx
    simp only [List.mem_singleton] at hx
    subst hx
    exact Or.inl ⟨0, Nat.le_refl _, .nil _⟩
  goal := by simpa using Ne.symm h

/-- On to the next distance. -/
theorem Inv.shift {d : Nat} {B : List Entry} {vis : List Nat} (h : Inv net start goal d [] B vis) :
    Inv net start goal (d + 1) B [] vis where
  pa := h.pb
  pb := by simp
  va := h.vb
  vb := by simp
  near := by
    intro m x hm hr
    rcases Nat.lt_or_eq_of_le hm with hlt | rfl
    · exact h.near m x (by omega) hr
    · rcases h.next x hr with h' | ⟨e, he, _⟩
      · exact h'
      · simp at he
  next := by
    intro x hr
    obtain ⟨y, h1, h2⟩ := hr.unsnoc
    have hy : y ∈ vis := by
      rcases h.next y h1 with h' | ⟨e, he, _⟩
      · exact h'
      · simp at he
    rcases h.only y hy with ⟨m, hm, hmr⟩ | hB
    · left
      have hr' := hmr.snoc h2
      rcases Nat.lt_or_eq_of_le hm with hlt | rfl
      · exact h.near (m + 1) x hlt hr'
      · rcases h.next x hr' with h' | ⟨e, he, _⟩
        · exact h'
        · simp at he
    · obtain ⟨e, he, rfl⟩ := List.mem_map.mp hB
      exact Or.inr ⟨e, he, h2⟩
  only := by
    intro x hx
    rcases h.only x hx with ⟨m, hm, hr⟩ | hB
    · exact Or.inl ⟨m, by omega, hr⟩
    · obtain ⟨e, he, rfl⟩ := List.mem_map.mp hB
      exact Or.inl ⟨d + 1, Nat.le_refl _, (h.pb e he).route⟩
  goal := h.goal

/-- An empty queue: the goal cannot be reached. -/
theorem Inv.finished {d : Nat} {vis : List Nat} (h : Inv net start goal d [] [] vis) (n : Nat) :
    ∀ x, Route (Link net) n start x → x ∈ vis := by
  induction n with
  | zero => intro x hr; exact h.near 0 x (Nat.zero_le _) hr
  | succ n ih =>
    intro x hr
    obtain ⟨y, h1, h2⟩ := hr.unsnoc
    rcases h.only y (ih y h1) with ⟨m, hm, hmr⟩ | hB
    · have hr' := hmr.snoc h2
      rcases Nat.lt_or_eq_of_le hm with hlt | rfl
      · exact h.near (m + 1) x hlt hr'
      · rcases h.next x hr' with h' | ⟨e, he, _⟩
        · exact h'
        · simp at he
    · simp at hB

/-- What a result says. -/
def Right (net : Net) (start goal : Nat) : Found → Prop
  | .path p => ∃ d, PathTo net start p goal (d + 1) ∧ Dist (Link net) (d + 1) start goal
  | .noPath => ¬ Reachable (Link net) start goal
  | .stuck => True

/-- Scanning the first node of `A`. -/
theorem Inv.head {d : Nat} {x : Nat} {p : List Nat} {A B : List Entry} {vis : List Nat} (h : Inv net start goal d ((x, p) :: A) B vis) :
    (goal ∈ adj net x ∧ scan goal p (adj net x) vis (A ++ B) = .inl (p ++ [goal]) ∧
      PathTo net start (p ++ [goal]) goal (d + 1) ∧ Dist (Link net) (d + 1) start goal) ∨
    (∃ B' vis', scan goal p (adj net x) vis (A ++ B) = .inr (vis', A ++ B') ∧ Inv net start goal d A B' vis') := by
  rcases scan_spec (goal := goal) p (adj net x) vis (A ++ B) with ⟨hg, he⟩ | ⟨hg, new, vis', he, h3, h4, h5⟩
  · left
    have hp := h.pa (x, p) (by simp)
    have hl := mem_adj.mp hg
    refine ⟨hg, he, .snoc hp hl, (hp.snoc hl).route, ?_⟩
    intro m hm
    rcases Nat.lt_or_ge d m with hlt | hle
    · exact hlt
    · exact absurd (h.near m goal hle hm) h.goal
  · right
    refine ⟨B ++ new.map fun n => (n, p ++ [n]), vis', by rw [he, List.append_assoc], ?_⟩
    have hp := h.pa (x, p) (by simp)
    constructor
    · intro e he'; exact h.pa e (by simp [he'])
    · intro e he'
      rw [List.mem_append] at he'
      rcases he' with he' | he'
      · exact h.pb e he'
      · obtain ⟨n, hn, rfl⟩ := List.mem_map.mp he'
        exact .snoc hp (mem_adj.mp (h5 n hn))
    · intro e he'; exact (h3 _).mpr (Or.inl (h.va e (by simp [he'])))
    · intro e he'
      rw [List.mem_append] at he'
      rcases he' with he' | he'
      · exact (h3 _).mpr (Or.inl (h.vb e he'))
      · obtain ⟨n, hn, rfl⟩ := List.mem_map.mp he'
        exact (h4 _).mpr (Or.inr hn)
    · intro m y hm hr; exact (h3 _).mpr (Or.inl (h.near m y hm hr))
    · intro y hr
      rcases h.next y hr with h' | ⟨e, he', hl⟩
      · exact Or.inl ((h3 _).mpr (Or.inl h'))
      · simp only [List.mem_cons] at he'
        rcases he' with rfl | he'
        · exact Or.inl ((h3 _).mpr (Or.inr (mem_adj.mpr hl)))
        · exact Or.inr ⟨e, he', hl⟩
    · intro y hy
      rcases (h4 y).mp hy with hy | hy
      · rcases h.only y hy with h' | h'
        · exact Or.inl h'
        · exact Or.inr (by rw [List.map_append, List.mem_append]; exact Or.inl h')
      · refine Or.inr ?_
        rw [List.map_append, List.mem_append]
        right
        simpa using hy
    · intro hc
      rcases (h3 _).mp hc with hc | hc
      · exact h.goal hc
      · exact hg hc

theorem bfs_right (fuel : Nat) : ∀ (d : Nat) (A B : List Entry) (vis : List Nat), Inv net start goal d A B vis →
    Right net start goal (bfs net goal fuel (A ++ B) vis) := by
  have key : ∀ (fuel d : Nat) (x : Nat) (p : List Nat) (A B : List Entry) (vis : List Nat),
      (∀ (d : Nat) (A B : List Entry) (vis : List Nat), Inv net start goal d A B vis →
        Right net start goal (bfs net goal fuel (A ++ B) vis)) →
      Inv net start goal d ((x, p) :: A) B vis →
      Right net start goal (bfs net goal (fuel + 1) ((x, p) :: A ++ B) vis) := by
    intro fuel d x p A B vis ih h
    rw [List.cons_append]
    unfold bfs
    rcases h.head with ⟨_, he, h1, h2⟩ | ⟨B', vis', he, h1⟩
    · rw [he]; exact ⟨d, h1, h2⟩
    · rw [he]; exact ih d A B' vis' h1
  have done : ∀ (fuel d : Nat) (vis : List Nat), Inv net start goal d [] [] vis →
      Right net start goal (bfs net goal fuel [] vis) := by
    intro fuel d vis h
    have : bfs net goal fuel [] vis = .noPath := by cases fuel <;> rfl
    rw [this]
    rintro ⟨n, hn⟩
    exact h.goal (h.finished n goal hn)
  induction fuel with
  | zero =>
    intro d A B vis h
    cases A with
    | cons e A => simp [bfs, Right]
    | nil =>
      cases B with
      | nil => exact done 0 d vis h
      | cons e B => simp [bfs, Right]
  | succ fuel ih =>
    intro d A B vis h
    cases A with
    | cons e A => exact key fuel d e.1 e.2 A B vis ih h
    | nil =>
      cases B with
      | nil => exact done _ d vis h
      | cons e B =>
        have := key fuel (d + 1) e.1 e.2 B [] vis ih h.shift
        simpa using this

/-- Nodes of `U` not visited yet. -/
def unseen (U vis : List Nat) : Nat := (U.filter fun x => !decide (x ∈ vis)).length

theorem unseen_le {U vis vis' : List Nat} (h : ∀ x, x ∈ vis → x ∈ vis') : unseen U vis' ≤ unseen U vis := by
  unfold unseen
  induction U with
  | nil => simp
  | cons a U ih =>
    simp only [List.filter_cons]
    by_cases h1 : a ∈ vis
    · simp only [h1, h a h1, decide_true, Bool.not_true, Bool.false_eq_true, if_false]; exact ih
    · by_cases h2 : a ∈ vis'
      · simp only [h1, h2, decide_true, decide_false, Bool.not_true, Bool.not_false, Bool.false_eq_true, if_false, if_true,
          List.length_cons]; omega
      · simp only [h1, h2, decide_false, Bool.not_false, if_true, List.length_cons]; omega

theorem unseen_cons {U vis : List Nat} {n : Nat} (hn : n ∈ U) (hv : n ∉ vis) : unseen U (n :: vis) < unseen U vis := by
  induction U with
  | nil => simp at hn
  | cons a U ih =>
    have hle : unseen U (n :: vis) ≤ unseen U vis := unseen_le fun x hx => List.mem_cons_of_mem _ hx
    unfold unseen at hle ih ⊢
    simp only [List.filter_cons]
    by_cases ha : a = n
    · subst ha
      simp only [List.mem_cons, true_or, decide_true, Bool.not_true, Bool.false_eq_true, if_false, hv, decide_false,
        Bool.not_false, if_true, List.length_cons]
      simp only [List.mem_cons] at hle
      omega
    · have hn' : n ∈ U := by simpa [Ne.symm ha] using hn
      have := ih hn'
      by_cases h1 : a ∈ vis
      · have h2 : a ∈ n :: vis := List.mem_cons_of_mem _ h1
        simp only [h1, h2, decide_true, Bool.not_true, Bool.false_eq_true, if_false]; exact this
      · have h2 : a ∉ n :: vis := by simp [ha, h1]
        simp only [h1, h2, decide_false, Bool.not_false, if_true, List.length_cons]; omega

theorem scan_measure (U : List Nat) (path ns vis vis' : List Nat) (q q' : List Entry) (hU : ∀ x ∈ ns, x ∈ U)
    (h : scan goal path ns vis q = .inr (vis', q')) : q'.length + unseen U vis' ≤ q.length + unseen U vis := by
  induction ns generalizing vis q with
  | nil =>
    simp only [scan, Sum.inr.injEq, Prod.mk.injEq] at h
    obtain ⟨rfl, rfl⟩ := h; exact Nat.le_refl _
  | cons n r ih =>
    unfold scan at h
    split at h
    · simp at h
    · split at h
      · exact ih vis q (fun x hx => hU x (by simp [hx])) h
      · rename_i h1 h2
        have := ih _ _ (fun x hx => hU x (by simp [hx])) h
        have := unseen_cons (hU n (by simp)) h2
        simp only [List.length_append, List.length_cons, List.length_nil] at *
        omega

theorem bfs_not_stuck (U : List Nat) (hU : ∀ u, ∀ x ∈ adj net u, x ∈ U) (fuel : Nat) :
    ∀ (q : List Entry) (vis : List Nat), q.length + unseen U vis ≤ fuel → bfs net goal fuel q vis ≠ .stuck := by
  induction fuel with
  | zero =>
    intro q vis h
    cases q with
    | nil => simp [bfs]
    | cons e q => simp at h
  | succ fuel ih =>
    intro q vis h
    cases q with
    | nil => simp [bfs]
    | cons e q =>
      unfold bfs
      cases hs : scan goal e.2 (adj net e.1) vis q with
      | inl p => simp
      | inr r =>
        dsimp only
        apply ih
        have := scan_measure U e.2 _ vis r.1 q r.2 (hU e.1) hs
        simp only [List.length_cons] at h
        omega

theorem adj_listed {u x : Nat} (h : x ∈ adj net u) : x ∈ listed net := by
  obtain ⟨ns, h1, h2⟩ := mem_adj.mp h
  exact List.mem_flatMap.mpr ⟨_, Dict.mem_of_get? h1, h2⟩

/-- The search always ends. -/
theorem shortestPath_ends : shortestPath net start goal ≠ .stuck := by
  unfold shortestPath
  apply bfs_not_stuck (listed net) (fun u x hx => adj_listed hx)
  have : unseen (listed net) [start] ≤ (listed net).length := List.length_filter_le _ _
  simp only [List.length_singleton]
  omega

theorem shortestPath_right (h : start ≠ goal) : Right net start goal (shortestPath net start goal) := by
  have := bfs_right (net := net) (start := start) (goal := goal) ((listed net).length + 1) 0 [(start, [start])] [] [start] (init_inv h)
  simpa [shortestPath] using this

end Verif.Routing
