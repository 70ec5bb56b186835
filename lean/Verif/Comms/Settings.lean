import Verif.Comms.Props

/-! # C34, C35: what was last set, told from the operations

The theorems of `Props` about degraded links and about stores speak of what the manager holds when it looks. Here the same is said of the operations
made before: the settings last made count, and nothing else. -/

namespace Verif.Comms

/-- What was last set for everything, the links, the nodes, and the stores the actors are connected with. -/
structure Settings where
  all : Bool
  links : List (Nat × Nat)
  nodes : List Nat
  store : Nat → Option Nat

def setting (c : Settings) : Op → Settings
  | .setDegraded b => { c with all := b }
  | .setLinks l => { c with links := l }
  | .setNodes l => { c with nodes := l }
  | .connect a st => { c with store := fun x => if x = a then some st else c.store x }
  | _ => c

def settings (ops : List Op) : Settings := ops.foldl setting ⟨false, [], [], fun _ => none⟩

/-- The link from `a` to `b` is down. -/
def Down (c : Settings) (a b : Nat) : Prop := c.all = true ∨ a ∈ c.nodes ∨ b ∈ c.nodes ∨ (a, b) ∈ c.links

/-- The store of `actor` for the messages of the manager: the one it is connected with, if it has it, or else the first for the mode. -/
def Wanted (cfg : Cfg) (c : Settings) (actor st : Nat) : Prop :=
  (c.store actor = some st ∧ ∃ ms, (st, ms) ∈ cfg.states actor) ∨
  (c.store actor = none ∧ ∃ a b modes, cfg.states actor = a ++ (st, some modes) :: b ∧ cfg.mode ∈ modes ∧
    ∀ q ∈ a, ∀ ms, q.2 = some ms → cfg.mode ∉ ms)

structure Holds (s : St) (c : Settings) : Prop where
  degraded : s.degraded = c.all
  links : s.links = c.links
  nodes : s.nodes = c.nodes
  store : ∀ a, s.connected.get? a = c.store a

theorem Holds.step {s : St} {c : Settings} (h : Holds s c) (cfg : Cfg) (op : Op) : Holds (step cfg s op).1 (setting c op) := by
  obtain ⟨h1, h2, h3, h4⟩ := h
  cases op with
  | advance d => simp only [Comms.step]; split <;> exact ⟨h1, h2, h3, h4⟩
  | take => simp only [Comms.step]; split <;> exact ⟨h1, h2, h3, h4⟩
  | resume i =>
    simp only [Comms.step]
    split
    · exact ⟨h1, h2, h3, h4⟩
    · split
      · split <;> exact ⟨h1, h2, h3, h4⟩
      · split <;> exact ⟨h1, h2, h3, h4⟩
      · exact ⟨h1, h2, h3, h4⟩
  | accept i =>
    simp only [Comms.step]
    split
    · exact ⟨h1, h2, h3, h4⟩
    · split <;> exact ⟨h1, h2, h3, h4⟩
  | connect a st =>
    refine ⟨h1, h2, h3, fun x => ?_⟩
    simp only [Comms.step, setting]
    by_cases hx : x = a
    · subst hx; simp
    · rw [Dict.get?_set_ne _ _ (Ne.symm hx), if_neg hx, h4]
  | setDegraded b => exact ⟨rfl, h2, h3, h4⟩
  | setLinks l => exact ⟨h1, rfl, h3, h4⟩
  | setNodes l => exact ⟨h1, h2, rfl, h4⟩
  | send a b c => exact ⟨h1, h2, h3, h4⟩
  | resend m a b => exact ⟨h1, h2, h3, h4⟩

theorem Holds.run (cfg : Cfg) (ops : List Op) : ∀ {s : St} {c : Settings}, Holds s c → Holds (run cfg s ops).1 (ops.foldl setting c) := by
  induction ops with
  | nil => exact fun h => h
  | cons op r ih => exact fun h => ih (h.step cfg op)

theorem holds (cfg : Cfg) (t : Rat) (ops : List Op) : Holds (run cfg (init t) ops).1 (settings ops) :=
  Holds.run cfg ops ⟨rfl, rfl, rfl, fun _ => rfl⟩

/-- **C34, told from the operations.** The check of message `id` finds its link blocked exactly when, by what was last set, everything, its sender, its
destination, or the link from the one to the other is degraded. -/
theorem c34_last_set (cfg : Cfg) (t : Rat) (ops : List Op) (i id : Nat) (t' : Rat) (b : Bool)
    (h : (step cfg (run cfg (init t) ops).1 (.resume i)).2 = .checked id t' b) :
    ∃ m, (sends ops)[id]? = some m ∧ (b = true ↔ Down (settings ops) m.sender m.dest) := by
  have hh := holds cfg t ops
  cases hp : (run cfg (init t) ops).1.procs[i]? with
  | none => simp [step, hp] at h
  | some p =>
    obtain ⟨h1, h2⟩ := (reach cfg t ops).at_id hp
    have hid : id = i := by
      have h' := h
      simp only [step, hp] at h'
      split at h'
      · split at h'
        · split at h'
          · simp at h'
          · simp only [Out.checked.injEq] at h'
            rw [← h'.1]; exact h1
        · simp at h'
      · split at h' <;> simp at h'
      · simp at h'
    refine ⟨p.msg, by rw [hid]; exact h2, ?_⟩
    rw [c34_exactly_configured cfg t ops i id t' b p hp h, hh.degraded, hh.links, hh.nodes]
    exact Iff.rfl

/-- The link from 1 to 2 was down and is no longer; the link from 2 to 1 is. -/
example : (step cfg0 (run cfg0 (init 0) [.setLinks [(1, 2)], .send 1 2 11, .take, .setLinks [(2, 1)]]).1 (.resume 0)).2 = .checked 0 0 false := by decide +kernel

theorem run_snoc (cfg : Cfg) (ops : List Op) (op : Op) : ∀ s : St,
    (run cfg s (ops ++ [op])).1 = (step cfg (run cfg s ops).1 op).1 ∧ (run cfg s (ops ++ [op])).2 = (run cfg s ops).2 ++ [(step cfg (run cfg s ops).1 op).2] := by
  induction ops with
  | nil => exact fun s => ⟨rfl, rfl⟩
  | cons o r ih =>
    intro s
    have := ih (step cfg s o).1
    refine ⟨this.1, ?_⟩
    show _ :: _ = _ :: _
    exact congrArg _ this.2

/-- A process that puts its message did so before, or has just got on and looked the store up. -/
theorem putting_step (cfg : Cfg) (s : St) (op : Op) (i : Nat) (p' : Proc) (st : Nat) (d : Rat) (hp : (step cfg s op).1.procs[i]? = some p')
    (hph : p'.ph = .putting st d) :
    s.procs[i]? = some p' ∨ op = .resume i ∧ storeOf cfg s p'.msg.dest = some st := by
  have hset : ∀ (j : Nat) (p : Proc) (ph : Ph), s.procs[j]? = some p → (s.procs.set j { p with ph := ph })[i]? = some p' →
      s.procs[i]? = some p' ∨ j = i ∧ ph = .putting st d ∧ p'.msg = p.msg := by
    intro j p ph hj h
    rw [List.getElem?_set] at h
    split at h
    · rename_i hji
      split at h
      · simp only [Option.some.injEq] at h
        subst h
        exact Or.inr ⟨hji, hph, rfl⟩
      · cases h
    · exact Or.inl h
  have hput : ∀ m, startPut cfg s m = .putting st d → storeOf cfg s m.dest = some st := by
    intro m h
    unfold startPut at h
    split at h
    · cases h
    · rename_i x hx
      simp only [Ph.putting.injEq] at h
      rw [hx, h.1]
  cases op with
  | advance e => simp only [step] at hp; split at hp <;> exact Or.inl hp
  | take =>
    simp only [step] at hp
    split at hp
    · exact Or.inl hp
    · rw [List.getElem?_append] at hp
      split at hp
      · exact Or.inl hp
      · rw [List.getElem?_singleton] at hp
        split at hp
        · simp only [Option.some.injEq] at hp
          subst hp
          cases hph
        · cases hp
  | resume j =>
    simp only [step] at hp
    split at hp
    · exact Or.inl hp
    · rename_i p hj
      split at hp
      · split at hp
        · rcases hset j p _ hj hp with h | ⟨rfl, h, hm⟩
          · exact Or.inl h
          · refine Or.inr ⟨rfl, ?_⟩
            rw [hm]
            unfold check at h
            split at h
            · cases h
            · split at h
              · split at h
                · cases h
                · split at h <;> cases h
              · split at h
                · cases h
                · exact hput _ h
        · exact Or.inl hp
      · split at hp
        · rcases hset j p _ hj hp with h | ⟨rfl, h, hm⟩
          · exact Or.inl h
          · exact Or.inr ⟨rfl, by rw [hm]; exact hput _ h⟩
        · exact Or.inl hp
      · exact Or.inl hp
  | accept j =>
    simp only [step] at hp
    split at hp
    · exact Or.inl hp
    · rename_i p hj
      split at hp
      · rcases hset j p _ hj hp with h | ⟨_, h, _⟩
        · exact Or.inl h
        · cases h
      · exact Or.inl hp
  | _ => exact Or.inl hp

theorem wanted {cfg : Cfg} {s : St} {c : Settings} (h : Holds s c) {actor st : Nat} (hs : storeOf cfg s actor = some st) : Wanted cfg c actor st := by
  have := storeOf_some hs
  unfold RightStore at this
  rw [h.store] at this
  exact this

/-- The store was looked up when the process got on, by what was set till then. -/
theorem putting_from (cfg : Cfg) (t : Rat) (ops : List Op) : ∀ (i : Nat) (p : Proc) (st : Nat) (d : Rat), (run cfg (init t) ops).1.procs[i]? = some p →
    p.ph = .putting st d → ∃ a b, ops = a ++ .resume i :: b ∧ Wanted cfg (settings a) p.msg.dest st := by
  induction ops using List.reverseRecOn with
  | nil => intro i p st d hp; simp [run, init] at hp
  | append_singleton ops op ih =>
    intro i p st d hp hph
    rw [(run_snoc cfg ops op _).1] at hp
    rcases putting_step cfg _ op i p st d hp hph with h | ⟨rfl, h⟩
    · obtain ⟨a, b, rfl, hw⟩ := ih i p st d h hph
      exact ⟨a, b ++ [op], by simp, hw⟩
    · exact ⟨ops, [], rfl, wanted (holds cfg t ops) h⟩

/-- Messages arrive only as the store accepts them. -/
theorem arrived_accept {cfg : Cfg} {s : St} {op : Op} {a st j c : Nat} {t : Rat} (h : (step cfg s op).2 = .arrived a st j c t) :
    ∃ k p d, op = .accept k ∧ s.procs[k]? = some p ∧ p.ph = .putting st d ∧ p.id = j ∧ a = p.msg.dest := by
  cases op with
  | accept k =>
    simp only [step] at h
    split at h
    · cases h
    · rename_i p hp
      split at h
      · rename_i st' d hph
        simp only [Out.arrived.injEq] at h
        obtain ⟨h1, h2, h3, -, -⟩ := h
        exact ⟨k, p, d, rfl, hp, by rw [hph, h2], h3, h1.symm⟩
      · cases h
  | resume k =>
    simp only [step] at h
    split at h
    · cases h
    · split at h
      · split at h
        · simp only at h
          split at h <;> cases h
        · cases h
      · split at h <;> cases h
      · cases h
  | advance d => simp only [step] at h; split at h <;> cases h
  | take => simp only [step] at h; split at h <;> cases h
  | _ => cases h

/-- **C35, the store, told from the operations.** A message arrives in the store its destination was connected with, by what was last set when its
process got on to put it; for a destination not connected, in its first store for the mode of the manager. -/
theorem c35_connected_store (cfg : Cfg) (t : Rat) (ops : List Op) : ∀ (id actor st c : Nat) (t' : Rat),
    (actor, st, c, t') ∈ arrivals (run cfg (init t) ops).2 id → ∃ a b m, ops = a ++ .resume id :: b ∧ (sends ops)[id]? = some m ∧ actor = m.dest ∧
      c = m.content ∧ Wanted cfg (settings a) actor st := by
  induction ops using List.reverseRecOn with
  | nil => intro id actor st c t' h; simp [run, arrivals] at h
  | append_singleton ops op ih =>
    intro id actor st c t' h
    obtain ⟨m, hm, h1, h2⟩ := (c35_at_most_once cfg t (ops ++ [op]) id).2 _ h
    rw [(run_snoc cfg ops op _).2] at h
    unfold arrivals at h
    rw [List.filterMap_append, List.mem_append] at h
    rcases h with h | h
    · obtain ⟨a, b, m', rfl, _, _, _, hw⟩ := ih id actor st c t' h
      exact ⟨a, b ++ [op], m, by simp, hm, h1, h2, hw⟩
    · rw [List.mem_filterMap] at h
      obtain ⟨o, ho, h⟩ := h
      rw [List.mem_singleton] at ho
      subst ho
      obtain ⟨j, p, d, rfl, hj, hph, hid, h3⟩ : ∃ k p d, op = .accept k ∧ (run cfg (init t) ops).1.procs[k]? = some p ∧ p.ph = .putting st d ∧
          p.id = id ∧ actor = p.msg.dest := by
        split at h
        · rename_i a' st' j' c' t'' ho
          split at h
          · rename_i hjid
            simp only [Option.some.injEq, Prod.mk.injEq] at h
            obtain ⟨rfl, rfl, rfl, rfl⟩ := h
            obtain ⟨k, p, d, e1, e2, e3, e4, e5⟩ := arrived_accept ho
            exact ⟨k, p, d, e1, e2, e3, e4.trans hjid, e5⟩
          · cases h
        · cases h
      obtain ⟨h5, _⟩ := (reach cfg t ops).at_id hj
      obtain ⟨a, b, hops, hw⟩ := putting_from cfg t ops j p st d hj hph
      have hji : j = id := by rw [← h5, hid]
      subst hji
      exact ⟨a, b ++ [.accept j], m, by rw [hops]; simp, hm, h1, h2, by rw [h3]; exact hw⟩

/-- Connected with the store 6 while the message is on its way, and with 7 again after it was put. -/
example : arrivals (run { cfg0 with limited := fun _ _ => true } (init 0)
    [.send 1 2 11, .take, .resume 0, .connect 2 6, .advance (1/4), .resume 0, .connect 2 7, .advance 1, .accept 0]).2 0 = [(2, 6, 11, 5/4)] := by decide +kernel

end Verif.Comms
