import Verif.Letters.Envelope
import Verif.Routing.Props

/-! # C74, C34: every message has its turn, under the degradation last set

Nothing here speaks of the queue of the manager, or of what it holds of the settings: both are told from the operations alone. -/

namespace Verif.Letters

/-- How many messages an operation makes: `make_put` with a `Message` makes none. -/
def makes : Op → Nat
  | .make (.message _) _ _ => 0
  | .make _ _ _ => 1
  | _ => 0

/-- The messages put to the manager, in order, when `n` were made before. -/
def puts : Nat → List Op → List Nat
  | _, [] => []
  | n, .put ref :: r => if ref < n then ref :: puts n r else puts n r
  | n, op :: r => puts (n + makes op) r

/-- What was last set for everything, the links and the nodes. -/
structure Settings where
  all : Bool
  links : List (Nat × Nat)
  nodes : List Nat

def setting (c : Settings) : Op → Settings
  | .setDegraded b => { c with all := b }
  | .setLinks l => { c with links := l }
  | .setNodes l => { c with nodes := l }
  | _ => c

def settings (ops : List Op) : Settings := ops.foldl setting ⟨false, [], []⟩

/-- The link from `a` to `b` is down. -/
def Down (c : Settings) (a b : Nat) : Prop := c.all = true ∨ a ∈ c.nodes ∨ b ∈ c.nodes ∨ (a, b) ∈ c.links

/-- A process that goes on: nothing else changes. -/
structure Frame (s s' : St) : Prop where
  incoming : s'.incoming = s.incoming
  heap : s'.heap.length = s.heap.length
  refs : s'.procs.map (·.ref) = s.procs.map (·.ref)
  degraded : s'.degraded = s.degraded
  links : s'.links = s.links
  nodes : s'.nodes = s.nodes

theorem Frame.refl (s : St) : Frame s s := ⟨rfl, rfl, rfl, rfl, rfl, rfl⟩

theorem Frame.trans {a b c : St} (h : Frame a b) (h' : Frame b c) : Frame a c :=
  ⟨h'.1.trans h.1, h'.2.trans h.2, h'.3.trans h.3, h'.4.trans h.4, h'.5.trans h.5, h'.6.trans h.6⟩

theorem Frame.log (s : St) (p : Proc) (e : Event) (a b : Nat) : Frame s (logAttempt s p e a b) := by
  unfold logAttempt; split <;> exact ⟨rfl, rfl, rfl, rfl, rfl, rfl⟩

theorem logAttempt_procs' (s : St) (p : Proc) (e : Event) (a b : Nat) : (logAttempt s p e a b).procs = s.procs := by
  unfold logAttempt; split <;> rfl

theorem Frame.set {s : St} {i : Nat} {p q : Proc} (hp : s.procs[i]? = some p) (h : q.ref = p.ref) : Frame s (setProc s i q) := by
  refine ⟨rfl, rfl, ?_, rfl, rfl, rfl⟩
  apply List.ext_getElem?
  intro j
  unfold setProc
  simp only [List.getElem?_map, List.getElem?_set]
  split
  · rename_i hij
    subst hij
    obtain ⟨hl, _⟩ := List.getElem?_eq_some_iff.1 hp
    rw [if_pos hl, hp]
    simp [h]
  · rfl

theorem Frame.deliver (cfg : Cfg) {s : St} {i : Nat} {p : Proc} (hp : s.procs[i]? = some p) (e : Event) : Frame s (deliver cfg s i p e) := by
  have h1 : Frame s (stamp (logAttempt s p e p.curr p.dest) p.ref) :=
    (Frame.log s p e _ _).trans ⟨rfl, by simp [stamp], rfl, rfl, rfl, rfl⟩
  have h2 : (stamp (logAttempt s p e p.curr p.dest) p.ref).procs[i]? = some p := by
    show (logAttempt s p e p.curr p.dest).procs[i]? = _; rw [logAttempt_procs']; exact hp
  unfold Letters.deliver
  cases cfg.storeOf p.dest <;> exact h1.trans (.set h2 rfl)

theorem Frame.arrive (cfg : Cfg) {s : St} {i : Nat} {p : Proc} (hp : s.procs[i]? = some p) (hop : Nat) : Frame s (arriveHop cfg s i p hop) := by
  unfold arriveHop
  cases cfg.routing with
  | none => exact .deliver cfg hp .sent
  | some g => exact .set hp rfl

theorem Frame.check (cfg : Cfg) {s : St} {i : Nat} {p : Proc} (hp : s.procs[i]? = some p) (hop n : Nat) : Frame s (check cfg s i p hop n) := by
  have hl : ∀ e a b, (logAttempt s p e a b).procs[i]? = some p := fun e a b => by rw [logAttempt_procs']; exact hp
  unfold Letters.check
  split
  · exact .set hp rfl
  · split
    · split
      · unfold giveUp
        split <;> exact (Frame.log s p _ _ _).trans (.set (hl _ _ _) rfl)
      · simp only
        split <;> exact (Frame.log s p _ _ _).trans (.set (hl _ _ _) rfl)
    · unfold pass
      cases cfg.routing with
      | none =>
        simp only
        split
        · exact .set hp rfl
        · exact .arrive cfg hp hop
      | some g =>
        simp only
        split
        · exact (Frame.log s p _ _ _).trans (.set (hl _ _ _) rfl)
        · exact (Frame.log s p _ _ _).trans (.arrive cfg (hl _ _ _) hop)

theorem Frame.choose (cfg : Cfg) {s : St} {i : Nat} {p : Proc} (hp : s.procs[i]? = some p) : Frame s (choose cfg s i p) := by
  have hl : ∀ e a b, (logAttempt s p e a b).procs[i]? = some p := fun e a b => by rw [logAttempt_procs']; exact hp
  unfold Letters.choose
  cases cfg.routing with
  | none => exact .refl s
  | some g =>
    simp only
    split
    · exact .deliver cfg hp .reached
    · split
      · exact (Frame.log s p _ _ _).trans (.set (hl _ _ _) rfl)
      · exact .set hp rfl

theorem Frame.resume (cfg : Cfg) (s : St) (i : Nat) : Frame s (step cfg s (.resume i)).1 := by
  simp only [step]
  split
  · exact .refl s
  · rename_i p hp
    split
    · cases hph : p.ph with
      | choosing d => exact .choose cfg hp
      | trying hop n d => exact .check cfg hp hop n
      | moving hop d => exact .arrive cfg hp hop
      | _ => exact .refl s
    · exact .refl s

theorem Frame.accept (cfg : Cfg) (s : St) (i : Nat) : Frame s (step cfg s (.accept i)).1 := by
  simp only [step]
  split
  · exact .refl s
  · rename_i p hp
    cases hph : p.ph <;> first | exact .refl s | exact .set hp rfl

/-- What the manager holds, told from what was done. -/
structure Told (s : St) (n : Nat) (q : List Nat) (c : Settings) : Prop where
  made : s.heap.length = n
  turn : s.procs.map (·.ref) ++ s.incoming = q
  there : ∀ ref ∈ s.incoming, ref < n
  degraded : s.degraded = c.all
  links : s.links = c.links
  nodes : s.nodes = c.nodes

theorem Told.frame {s s' : St} {n : Nat} {q : List Nat} {c : Settings} (h : Told s n q c) (f : Frame s s') : Told s' n q c :=
  ⟨f.heap.trans h.made, by rw [f.refs, f.incoming]; exact h.turn, by rw [f.incoming]; exact h.there,
    f.degraded.trans h.degraded, f.links.trans h.links, f.nodes.trans h.nodes⟩

/-- The queue after one more operation. -/
def putOne (n : Nat) (q : List Nat) : Op → List Nat
  | .put ref => if ref < n then q ++ [ref] else q
  | _ => q

theorem puts_cons (n : Nat) (op : Op) (r : List Op) : puts n (op :: r) = putOne n [] op ++ puts (n + makes op) r := by
  cases op with
  | put ref => simp only [puts, putOne, makes]; split <;> simp
  | make g a b => cases g <;> simp [puts, putOne]
  | _ => simp [puts, putOne, makes]

theorem Told.step {s : St} {n : Nat} {q : List Nat} {c : Settings} (h : Told s n q c) (cfg : Cfg) (op : Op) :
    Told (step cfg s op).1 (n + makes op) (q ++ putOne n [] op) (setting c op) := by
  cases op with
  | advance d =>
    simp only [putOne, List.append_nil]
    refine h.frame ?_
    simp only [Letters.step]; split <;> exact ⟨rfl, rfl, rfl, rfl, rfl, rfl⟩
  | make g a b =>
    have key : ∀ x : Message, Told { s with heap := s.heap ++ [x] } (n + 1) (q ++ []) c := fun x =>
      ⟨by simp [h.made], by simpa using h.turn, fun ref hr => Nat.lt_succ_of_lt (h.there ref hr), h.degraded, h.links, h.nodes⟩
    cases g with
    | message ref => simp only [putOne, List.append_nil]; exact h
    | _ => exact key _
  | put ref =>
    simp only [Letters.step, putOne, h.made]
    split
    · rename_i hlt
      refine ⟨h.made, ?_, ?_, h.degraded, h.links, h.nodes⟩
      · simp only [List.nil_append]; rw [← List.append_assoc, h.turn]
      · intro x hx
        rcases List.mem_append.1 hx with hx | hx
        · exact h.there x hx
        · rw [List.mem_singleton.1 hx]; exact hlt
    · simp only [List.append_nil]; exact h
  | take =>
    simp only [putOne, List.append_nil]
    simp only [Letters.step]
    split
    · exact h
    · rename_i ref r hr
      have hlt : ref < s.heap.length := by rw [h.made]; exact h.there ref (by rw [hr]; simp)
      rw [List.getElem?_eq_getElem hlt]
      refine ⟨h.made, ?_, fun x hx => h.there x (by rw [hr]; exact List.mem_cons_of_mem _ hx), h.degraded, h.links, h.nodes⟩
      have := h.turn
      rw [hr] at this
      simpa using this
  | resume i => simp only [putOne, List.append_nil]; exact h.frame (.resume cfg s i)
  | accept i => simp only [putOne, List.append_nil]; exact h.frame (.accept cfg s i)
  | setDegraded b => simp only [putOne, List.append_nil]; exact ⟨h.made, h.turn, h.there, rfl, h.links, h.nodes⟩
  | setLinks l => simp only [putOne, List.append_nil]; exact ⟨h.made, h.turn, h.there, h.degraded, rfl, h.nodes⟩
  | setNodes l => simp only [putOne, List.append_nil]; exact ⟨h.made, h.turn, h.there, h.degraded, h.links, rfl⟩
  | connect u v t => simp only [putOne, List.append_nil]; exact ⟨h.made, h.turn, h.there, h.degraded, h.links, h.nodes⟩
  | setLogging b => simp only [putOne, List.append_nil]; exact ⟨h.made, h.turn, h.there, h.degraded, h.links, h.nodes⟩

theorem Told.run (cfg : Cfg) (ops : List Op) : ∀ {s : St} {n : Nat} {q : List Nat} {c : Settings}, Told s n q c →
    Told (run cfg s ops).1 (n + (ops.map makes).sum) (q ++ puts n ops) (ops.foldl setting c) := by
  induction ops with
  | nil => intro s n q c h; simp only [puts, List.append_nil]; exact h
  | cons op r ih =>
    intro s n q c h
    have := ih (h.step cfg op)
    rw [puts_cons, List.map_cons, List.sum_cons, ← Nat.add_assoc, ← List.append_assoc]
    exact this

theorem told (cfg : Cfg) (t : Rat) (b : Bool) (ops : List Op) :
    Told (run cfg (init t b) ops).1 (ops.map makes).sum (puts 0 ops) (settings ops) := by
  have h : Told (init t b) 0 [] ⟨false, [], []⟩ := ⟨rfl, rfl, (by intro r hr; cases hr), rfl, rfl, rfl⟩
  have := h.run cfg ops
  rw [Nat.zero_add, List.nil_append] at this
  exact this

theorem run_append' (cfg : Cfg) (a b : List Op) : ∀ s : St, (run cfg s (a ++ b)).1 = (run cfg (run cfg s a).1 b).1 := by
  induction a with
  | nil => exact fun s => rfl
  | cons op r ih => exact fun s => ih _

/-- `k` more takes empty a queue of `k` messages. -/
theorem takes (cfg : Cfg) (k : Nat) : ∀ {s : St} {n : Nat} {q : List Nat} {c : Settings}, Told s n q c → s.incoming.length ≤ k →
    (run cfg s (List.replicate k .take)).1.incoming = [] := by
  induction k with
  | zero => intro s n q c _ hk; exact List.eq_nil_of_length_eq_zero (Nat.le_zero.1 hk)
  | succ k ih =>
    intro s n q c h hk
    have hs := h.step cfg .take
    refine ih hs ?_
    simp only [Letters.step]
    split
    · rename_i hi; rw [hi]; simp
    · rename_i ref r hr
      have hlt : ref < s.heap.length := by rw [h.made]; exact h.there ref (by rw [hr]; simp)
      rw [List.getElem?_eq_getElem hlt]
      rw [hr] at hk
      simpa using hk

theorem puts_takes (k : Nat) (ops : List Op) : ∀ n, puts n (ops ++ List.replicate k .take) = puts n ops := by
  induction ops with
  | nil =>
    induction k with
    | zero => exact fun n => rfl
    | succ k ih => intro n; simpa [puts, List.replicate_succ, makes] using ih n
  | cons op r ih => intro n; rw [List.cons_append, puts_cons, puts_cons, ih]

/-- **C74, every message has its turn.** The processes that transmit messages do so for the messages put to the manager, one each, in the order of
the puts, and as soon as the manager has been given its turn as often as messages were put, every one of them has its process. -/
theorem c74_in_turn (cfg : Cfg) (t : Rat) (b : Bool) (ops : List Op) :
    (run cfg (init t b) ops).1.procs.map (·.ref) <+: puts 0 ops ∧
    (run cfg (init t b) (ops ++ List.replicate (puts 0 ops).length .take)).1.procs.map (·.ref) = puts 0 ops := by
  have h := told cfg t b ops
  refine ⟨⟨_, h.turn⟩, ?_⟩
  have h' := told cfg t b (ops ++ List.replicate (puts 0 ops).length .take)
  have h0 : (run cfg (init t b) (ops ++ List.replicate (puts 0 ops).length .take)).1.incoming = [] := by
    rw [run_append']
    refine takes cfg _ h ?_
    rw [← h.turn]
    simp
  have := h'.turn
  rw [h0, List.append_nil, puts_takes] at this
  exact this

theorem blocked_iff {s : St} {n : Nat} {q : List Nat} {c : Settings} (h : Told s n q c) (a b : Nat) : blocked s a b = true ↔ Down c a b := by
  unfold blocked Down
  rw [h.degraded, h.links, h.nodes]
  simp only [Bool.or_eq_true]
  apply or_congr Iff.rfl
  by_cases hn : a ∈ c.nodes ∨ b ∈ c.nodes
  · rw [if_pos hn]
    simp only [true_iff]
    rcases hn with hn | hn
    · exact Or.inl hn
    · exact Or.inr (Or.inl hn)
  · rw [if_neg hn]
    rw [not_or] at hn
    simp only [hn.1, hn.2, false_or, List.any_eq_true]
    constructor
    · rintro ⟨⟨x, y⟩, hm, hxy⟩
      simp only [Bool.and_eq_true, beq_iff_eq] at hxy
      obtain ⟨rfl, rfl⟩ := hxy
      exact hm
    · intro hm
      exact ⟨_, hm, by simp⟩

/-- The process waits for a later check, has given the link up, or has broken down. -/
def Held (p : Proc) (hop n : Nat) (p' : Proc) : Prop :=
  (∃ d, p'.ph = .trying hop (n + 1) d) ∨ p'.ph = .dropped ∨ p'.ph = .crashed ∨ hop ∈ p'.failed ∧ p'.curr = p.curr

/-- **C34, on the links of messages and routes.** A process due to try the link from where its message is to `hop` holds the message there exactly
if, by what was last set, everything, one of the two nodes or the link is degraded (for a retry period above zero, a hop not given up before,
different from where the message is, and a destination with a store). -/
theorem c34_letters (cfg : Cfg) (hrate : 0 < cfg.rate) (t : Rat) (b : Bool) (ops : List Op) (i : Nat) (p : Proc) (hop n : Nat) (d : Rat)
    (hp : (run cfg (init t b) ops).1.procs[i]? = some p) (hph : p.ph = .trying hop n d) (hd : d = (run cfg (init t b) ops).1.now)
    (hne : hop ≠ p.curr) (hf : hop ∉ p.failed) (hst : cfg.storeOf p.dest ≠ none) :
    ∃ p', (run cfg (init t b) (ops ++ [.resume i])).1.procs[i]? = some p' ∧ (Held p hop n p' ↔ Down (settings ops) p.curr hop) := by
  have h := told cfg t b ops
  rw [run_append']
  generalize (run cfg (init t b) ops).1 = s at hp hd h ⊢
  obtain ⟨hi, _⟩ := List.getElem?_eq_some_iff.1 hp
  have hr : cfg.rate ≠ 0 := ne_of_gt hrate
  have hstep : (run cfg s [.resume i]).1 = check cfg s i p hop n := by
    have hdue : due cfg p = some s.now := by unfold due; rw [hph, hd]
    simp only [run, step, hp, hdue, hph, if_true]
  rw [hstep, ← blocked_iff h]
  have hset : ∀ (s' : St) (q : Proc), s'.procs = s.procs → (setProc s' i q).procs[i]? = some q := fun s' q hs => by
    unfold setProc; simp only [hs, List.getElem?_set_self hi]
  have hl : ∀ e a b, (logAttempt s p e a b).procs = s.procs := fun e a b => logAttempt_procs' s p e a b
  have harr : ∀ s' : St, s'.procs = s.procs → ∃ p', (arriveHop cfg s' i p hop).procs[i]? = some p' ∧ ¬ Held p hop n p' := by
    intro s' hs
    unfold arriveHop
    cases hrt : cfg.routing with
    | none =>
      unfold deliver
      have h3 : (stamp (logAttempt s' p .sent p.curr p.dest) p.ref).procs = s.procs := by
        show (logAttempt s' p .sent p.curr p.dest).procs = _; rw [logAttempt_procs', hs]
      cases hs2 : cfg.storeOf p.dest with
      | none => exact absurd hs2 hst
      | some st =>
        refine ⟨_, hset _ _ h3, ?_⟩
        rintro (⟨d', h1⟩ | h1 | h1 | h1)
        · simp at h1
        · simp at h1
        · simp at h1
        · exact hf h1.1
    | some g =>
      refine ⟨_, hset _ _ hs, ?_⟩
      rintro (⟨d', h1⟩ | h1 | h1 | h1)
      · simp at h1
      · simp at h1
      · simp at h1
      · exact hne h1.2
  unfold check nTries
  rw [if_neg hr]
  simp only
  by_cases hb : blocked s p.curr hop = true
  · rw [if_pos hb]
    simp only [hb, iff_true]
    split
    · unfold giveUp
      cases cfg.routing with
      | none => exact ⟨_, hset _ _ (hl _ _ _), Or.inr (Or.inl rfl)⟩
      | some g => exact ⟨_, hset _ _ (hl _ _ _), Or.inr (Or.inr (Or.inr ⟨by simp, rfl⟩))⟩
    · rw [if_neg (not_lt.2 hrate.le)]
      exact ⟨_, hset _ _ (hl _ _ _), Or.inl ⟨_, rfl⟩⟩
  · rw [if_neg hb]
    have key : (∃ p', (pass cfg s i p hop).procs[i]? = some p' ∧ ¬ Held p hop n p') := by
      unfold pass
      have hs1 : (match cfg.routing with | none => s | some _ => logAttempt s p .moved p.curr hop).procs = s.procs := by
        cases cfg.routing
        · rfl
        · exact hl _ _ _
      simp only
      split
      · refine ⟨_, hset _ _ hs1, ?_⟩
        rintro (⟨d', h1⟩ | h1 | h1 | h1)
        · simp at h1
        · simp at h1
        · simp at h1
        · exact hf h1.1
      · exact harr _ hs1
    obtain ⟨p', h1, h2⟩ := key
    exact ⟨p', h1, ⟨fun g => absurd g h2, fun g => absurd g hb⟩⟩

/-- The nodes `a` and `b` were connected, in this direction. -/
def Joined (ops : List Op) (a b : Nat) : Prop := Op.connect a b true ∈ ops ∨ Op.connect a b false ∈ ops ∨ Op.connect b a true ∈ ops

theorem step_net (cfg : Cfg) (s : St) (op : Op) :
    (step cfg s op).1.net = match op with | .connect u v tw => Routing.connect s.net u v tw | _ => s.net := by
  have hl : ∀ (s : St) p e a b, (logAttempt s p e a b).net = s.net := fun s p e a b => by unfold logAttempt; split <;> rfl
  have hdel : ∀ (s : St) i p e, (deliver cfg s i p e).net = s.net := fun s i p e => by
    unfold deliver; cases cfg.storeOf p.dest <;> exact hl s p e _ _
  have harr : ∀ (s : St) i p hop, (arriveHop cfg s i p hop).net = s.net := fun s i p hop => by
    unfold arriveHop
    cases cfg.routing with
    | none => exact hdel s i p .sent
    | some g => rfl
  cases op with
  | advance d => simp only [step]; split <;> rfl
  | make g a b => cases g <;> rfl
  | put ref => simp only [step]; split <;> rfl
  | take =>
    simp only [step]
    split
    · rfl
    · split <;> rfl
  | resume i =>
    simp only [step]
    split
    · rfl
    · rename_i p hp
      split
      · cases hph : p.ph with
        | choosing d =>
          show (choose cfg s i p).net = _
          unfold choose
          cases cfg.routing with
          | none => rfl
          | some g =>
            simp only
            split
            · exact hdel s i p .reached
            · split
              · exact hl s p _ _ _
              · rfl
        | trying hop n d =>
          show (check cfg s i p hop n).net = _
          unfold check
          split
          · rfl
          · split
            · split
              · unfold giveUp
                split <;> exact hl s p _ _ _
              · simp only
                split <;> exact hl s p _ _ _
            · unfold pass
              cases cfg.routing with
              | none =>
                simp only
                split
                · rfl
                · exact harr s i p hop
              | some g =>
                simp only
                split
                · exact hl s p _ _ _
                · exact (harr _ i p hop).trans (hl s p _ _ _)
        | moving hop d => exact harr s i p hop
        | _ => rfl
      · rfl
  | accept i =>
    simp only [step]
    split
    · rfl
    · rename_i p hp
      cases hph : p.ph <;> rfl
  | _ => rfl

theorem run_joined (cfg : Cfg) (ops : List Op) : ∀ (s : St) (a b : Nat),
    Routing.Link (run cfg s ops).1.net a b ↔ Routing.Link s.net a b ∨ Joined ops a b := by
  induction ops with
  | nil => intro s a b; simp [run, Joined]
  | cons op r ih =>
    intro s a b
    show Routing.Link (run cfg (step cfg s op).1 r).1.net a b ↔ _
    rw [ih, step_net]
    have key : (∀ u v tw, op ≠ .connect u v tw) → (Joined (op :: r) a b ↔ Joined r a b) := by
      intro h
      unfold Joined
      simp only [List.mem_cons]
      rw [or_iff_right (Ne.symm (h a b true)), or_iff_right (Ne.symm (h a b false)), or_iff_right (Ne.symm (h b a true))]
    cases op with
    | connect u v tw =>
      simp only
      rw [Routing.c36_connect]
      unfold Joined
      simp only [List.mem_cons, Op.connect.injEq]
      cases tw <;> simp <;> tauto
    | _ => rw [key (by intro _ _ _ h; cases h)]

/-- **C36, on the way of a message.** A process due to choose the next hop of its message takes the first step of a shortest path over the links
connected so far, avoiding the hops given up, and drops the message exactly if there is no path (for a destination not given up itself, and a message not
there yet). -/
theorem c36_letters_partial (cfg : Cfg) (g : Bool) (ord : List Nat → List Nat) (hr : cfg.routing = some (g, ord)) (ho : Routing.Reorders ord) (t : Rat) (b : Bool)
    (ops : List Op) (i : Nat) (p : Proc) (d : Rat) (hp : (run cfg (init t b) ops).1.procs[i]? = some p) (hph : p.ph = .choosing d)
    (hd : d = (run cfg (init t b) ops).1.now) (hne : p.curr ≠ p.dest) (hc : p.curr ∉ p.failed) (hv : p.dest ∉ p.failed) :
    ∃ p', (run cfg (init t b) (ops ++ [.resume i])).1.procs[i]? = some p' ∧
      ((∃ hop, p'.ph = .trying hop 0 d ∧ Routing.FirstStep (fun x y => Joined ops x y ∧ x ∉ p.failed ∧ y ∉ p.failed) hop p.curr p.dest) ∨
       (p'.ph = .dropped ∧ ¬ Routing.Reachable (fun x y => Joined ops x y ∧ x ∉ p.failed ∧ y ∉ p.failed) p.curr p.dest)) := by
  have hE : (fun x y => Joined ops x y ∧ x ∉ p.failed ∧ y ∉ p.failed) = Routing.Open (run cfg (init t b) ops).1.net p.failed := by
    funext x y
    unfold Routing.Open
    have : Routing.Link (init t b).net x y ↔ False := by simp [Routing.Link, init]
    rw [run_joined, this, false_or]
  rw [hE, run_append']
  generalize (run cfg (init t b) ops).1 = s at hp hd ⊢
  obtain ⟨hi, _⟩ := List.getElem?_eq_some_iff.1 hp
  have hstep : (run cfg s [.resume i]).1 = choose cfg s i p := by
    have hdue : due cfg p = some s.now := by unfold due; rw [hph, hd]
    simp only [run, step, hp, hdue, hph, if_true]
  have hset : ∀ (s' : St) (q : Proc), s'.procs = s.procs → (setProc s' i q).procs[i]? = some q := fun s' q hs => by
    unfold setProc; simp only [hs, List.getElem?_set_self hi]
  obtain ⟨h1, h2⟩ := Routing.c36_shortest_partial ord ho s.net p.curr p.dest p.failed hne hc hv
  rw [hstep]
  unfold choose
  rw [hr]
  simp only
  rw [if_neg hne]
  cases hs : Routing.selectHop ord s.net p.curr p.dest p.failed with
  | none => exact ⟨_, hset _ _ (logAttempt_procs' _ _ _ _ _), Or.inr ⟨rfl, h2.1 hs⟩⟩
  | some hop => exact ⟨_, hset _ _ rfl, Or.inl ⟨hop, by rw [hd], h1 hop hs⟩⟩

/-- After the node 2 was given up, the message of `sample1` looks for another way. -/
example : ∃ p, (run cfg1 (init 0 true) (sample1.take 14)).1.procs[0]? = some p ∧ p.ph = .choosing 1 ∧ (run cfg1 (init 0 true) (sample1.take 14)).1.now = 1 ∧
    p.curr ≠ p.dest ∧ p.curr ∉ p.failed ∧ p.dest ∉ p.failed ∧ p.failed = [2] := ⟨⟨0, 0, 3, 0, 1, [2], .choosing 1⟩, by decide +kernel⟩

/-- Three puts, one of them of a message put before; one taken. -/
def turns : List Op := [.make (.text 9) 1 2, .make (.dict 4) 2 3, .put 1, .put 7, .put 0, .take, .put 1]

example : puts 0 turns = [1, 0, 1] ∧ (run cfg0 (init 0 true) turns).1.procs.map (·.ref) = [1] := by decide +kernel

/-- The node 2 is degraded, then 5 instead: the second check passes. -/
def freed : List Op := [.setNodes [2], .make (.text 9) 1 2, .put 0, .take, .resume 0, .setNodes [5], .advance (1/2)]

example : ∃ p, (run cfg0 (init 0 true) freed).1.procs[0]? = some p ∧ p.ph = .trying 2 1 (1/2) ∧ (run cfg0 (init 0 true) freed).1.now = 1/2 ∧ 2 ≠ p.curr ∧
    2 ∉ p.failed ∧ cfg0.storeOf p.dest ≠ none := ⟨⟨0, 0, 2, 0, 1, [], .trying 2 1 (1/2)⟩, by decide +kernel⟩

example : ¬ Down (settings freed) 1 2 := by simp [Down, settings, freed, setting]

end Verif.Letters
