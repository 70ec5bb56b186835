import Verif.Windowed.Model
import Verif.Store.Ids

/-! # What store operations leave alone -/

namespace Verif.Windowed

open Verif.Store (Cfg St Ev doGet doPut doInterrupt doProcess doAdvance Ids getIds putIds inflight trigPut trigGet enqPut enqGet)

variable {ι γ ν : Type} [DecidableEq ν]

/-- The items processed for requests in `m`. -/
def mineOf (m : List Nat) (l : List (Nat × ι)) : List (Nat × ι) := l.filter fun q => decide (q.1 ∈ m)

theorem mem_mineOf {m : List Nat} {l : List (Nat × ι)} {q : Nat × ι} : q ∈ mineOf m l ↔ q ∈ l ∧ q.1 ∈ m := by simp [mineOf]

theorem mineOf_append (m : List Nat) (a b : List (Nat × ι)) : mineOf m (a ++ b) = mineOf m a ++ mineOf m b := by simp [mineOf]

theorem mineOf_not {m : List Nat} {i : Nat} (x : ι) (h : i ∉ m) : mineOf m [(i, x)] = [] := by simp [mineOf, h]

theorem mineOf_yes {m : List Nat} {i : Nat} (x : ι) (h : i ∈ m) : mineOf m [(i, x)] = [(i, x)] := by simp [mineOf, h]

/-- A store operation that concerns neither the requests `m` nor the puts `b`. -/
structure Frame (m b : List Nat) (s s' : St ι γ ν) : Prop where
  del : mineOf m s'.delivered = mineOf m s.delivered
  wai : ∀ i ∈ m, (i ∈ s'.waiting ↔ i ∈ s.waiting)
  gid : ∀ i ∈ m, (i ∈ getIds s' ↔ i ∈ getIds s)
  los : ∀ i ∈ m, i ∈ s.waiting → (i ∈ s'.lost.map (·.1) ↔ i ∈ s.lost.map (·.1))
  puts : mineOf b (s'.accepted ++ s'.putQ) = mineOf b (s.accepted ++ s.putQ)
  acc : ∀ i ∈ s.accepted.map (·.1), i ∈ s'.accepted.map (·.1)
  nxt : s.nextId ≤ s'.nextId

theorem Frame.refl (m b : List Nat) (s : St ι γ ν) : Frame m b s s :=
  ⟨rfl, fun _ _ => .rfl, fun _ _ => .rfl, fun _ _ _ => .rfl, rfl, fun _ h => h, le_refl _⟩

theorem Frame.trans {m b : List Nat} {s s' s'' : St ι γ ν} (h : Frame m b s s') (k : Frame m b s' s'') : Frame m b s s'' :=
  ⟨k.del.trans h.del, fun i hi => (k.wai i hi).trans (h.wai i hi), fun i hi => (k.gid i hi).trans (h.gid i hi),
   fun i hi hw => (k.los i hi ((h.wai i hi).2 hw)).trans (h.los i hi hw), k.puts.trans h.puts, fun i hi => k.acc i (h.acc i hi), h.nxt.trans k.nxt⟩

/-- Serving the put queue changes only the contents. -/
theorem trigPut_same (c : Cfg ι γ ν) (s : St ι γ ν) :
    (trigPut c s).delivered = s.delivered ∧ (trigPut c s).lost = s.lost ∧ (trigPut c s).waiting = s.waiting ∧
      (trigPut c s).nextId = s.nextId ∧ (trigPut c s).now = s.now ∧ (trigPut c s).getQ = s.getQ ∧
      (∃ l, (trigPut c s).evq = s.evq ++ l) ∧ ∃ l, (trigPut c s).accepted = s.accepted ++ l := by
  have e := Store.trigPut_eff c s
  generalize trigPut c s = s' at e ⊢
  cases e with
  | none h' => rw [h']; exact ⟨rfl, rfl, rfl, rfl, rfl, rfl, ⟨[], by simp⟩, ⟨[], by simp⟩⟩
  | one i x q hq hr h' => rw [h']; exact ⟨rfl, rfl, rfl, rfl, rfl, rfl, ⟨_, rfl⟩, ⟨_, rfl⟩⟩

theorem trigGet_same (c : Cfg ι γ ν) (s : St ι γ ν) :
    (trigGet c s).delivered = s.delivered ∧ (trigGet c s).lost = s.lost ∧ (trigGet c s).waiting = s.waiting ∧
      (trigGet c s).nextId = s.nextId ∧ (trigGet c s).now = s.now ∧ (trigGet c s).putQ = s.putQ ∧
      (∃ l, (trigGet c s).evq = s.evq ++ l) ∧ (trigGet c s).accepted = s.accepted := by
  obtain ⟨served, h1, h2, -⟩ := Store.trigGet_eff c s
  generalize trigGet c s = s' at h1 h2 ⊢
  refine ⟨by rw [h1], by rw [h1], by rw [h1], by rw [h1], by rw [h1], by rw [h1], ⟨_, h2⟩, by rw [h1]⟩

theorem Frame.trigPut (m b : List Nat) (c : Cfg ι γ ν) (s : St ι γ ν) : Frame m b s (trigPut c s) := by
  obtain ⟨h1, h2, h3, h4, -, -, -, ⟨l, h5⟩⟩ := trigPut_same c s
  refine ⟨by rw [h1], fun i _ => by rw [h3], fun i _ => by rw [Store.trigPut_getIds], fun i _ _ => by rw [h2],
    by rw [Store.trigPut_putIds], fun i hi => ?_, by rw [h4]⟩
  rw [h5, List.map_append]; exact List.mem_append_left _ hi

theorem Frame.trigGet (m b : List Nat) (c : Cfg ι γ ν) (s : St ι γ ν) : Frame m b s (trigGet c s) := by
  obtain ⟨h1, h2, h3, h4, -, h6, -, h5⟩ := trigGet_same c s
  exact ⟨by rw [h1], fun i _ => by rw [h3], fun i _ => (Store.trigGet_getIds c s).mem_iff.symm, fun i _ _ => by rw [h2],
    by rw [h5, h6], fun i hi => by rw [h5]; exact hi, by rw [h4]⟩

theorem Frame.put {m b : List Nat} {c : Cfg ι γ ν} {s : St ι γ ν} (x : ι) (hm : ∀ i ∈ m ++ b, i < s.nextId) :
    Frame m b s (doPut c s x) := by
  refine Frame.trans (s' := enqPut s x) ?_ (Frame.trigPut m b c _)
  have hb : s.nextId ∉ b := fun h => absurd (hm _ (List.mem_append_right _ h)) (lt_irrefl _)
  have hw : ∀ i ∈ m, i ≠ s.nextId := fun i hi => ne_of_lt (hm i (List.mem_append_left _ hi))
  refine ⟨rfl, fun i hi => ?_, fun i _ => .rfl, fun i _ _ => .rfl, ?_, fun _ h => h, Nat.le_succ _⟩
  · simp [enqPut, hw i hi]
  · simp only [enqPut]
    rw [← List.append_assoc, mineOf_append, mineOf_not x hb, List.append_nil]

theorem Frame.get {m b : List Nat} {c : Cfg ι γ ν} {s : St ι γ ν} (g : γ) (hm : ∀ i ∈ m ++ b, i < s.nextId) :
    Frame m b s (doGet c s g) := by
  refine Frame.trans (s' := enqGet s g) ?_ (Frame.trigGet m b c _)
  have hw : ∀ i ∈ m, i ≠ s.nextId := fun i hi => ne_of_lt (hm i (List.mem_append_left _ hi))
  refine ⟨rfl, fun i hi => ?_, fun i hi => ?_, fun i _ _ => .rfl, rfl, fun _ h => h, Nat.le_succ _⟩
  · simp [enqGet, hw i hi]
  · simp [getIds, enqGet, hw i hi]

theorem mineOf_filter_ne {b : List Nat} {id : Nat} (h : id ∉ b) (l : List (Nat × ι)) :
    mineOf b (l.filter fun p => decide (p.1 ≠ id)) = mineOf b l := by
  rw [mineOf, List.filter_filter]
  refine List.filter_congr fun q _ => ?_
  simp only [Bool.decide_and, decide_not, Bool.and_eq_left_iff_imp, decide_eq_true_eq]
  intro hq
  simp
  rintro rfl
  exact h hq

theorem Frame.interrupt {m b : List Nat} {s : St ι γ ν} {id : Nat} (hm : id ∉ m) (hb : id ∉ b) :
    Frame m b s (doInterrupt s id) := by
  have hne : ∀ i ∈ m, i ≠ id := fun i hi h => hm (h ▸ hi)
  refine ⟨rfl, fun i hi => ?_, fun i hi => ?_, fun i _ _ => .rfl, ?_, fun _ h => h, le_refl _⟩
  · simp [doInterrupt, hne i hi]
  · simp [getIds, doInterrupt, hne i hi]
  · simp only [doInterrupt, mineOf_append]
    rw [mineOf_filter_ne hb]

/-- An interruption leaves everything but the request itself. -/
theorem Frame.interrupt_self {m b : List Nat} {s : St ι γ ν} {id : Nat} (hb : id ∉ b) :
    mineOf m (doInterrupt s id).delivered = mineOf m s.delivered ∧ (doInterrupt s id).lost = s.lost ∧
      mineOf b ((doInterrupt s id).accepted ++ (doInterrupt s id).putQ) = mineOf b (s.accepted ++ s.putQ) ∧
      (doInterrupt s id).accepted = s.accepted ∧ id ∉ (doInterrupt s id).waiting := by
  refine ⟨rfl, rfl, ?_, rfl, by simp [doInterrupt]⟩
  simp only [doInterrupt, mineOf_append]
  rw [mineOf_filter_ne hb]

theorem Frame.advance (m b : List Nat) (s : St ι γ ν) (t : Rat) : Frame m b s (doAdvance s t) := by
  unfold doAdvance
  split
  · exact ⟨rfl, fun _ _ => .rfl, fun _ _ => .rfl, fun _ _ _ => .rfl, rfl, fun _ h => h, le_refl _⟩
  · exact .refl _ _ _

theorem Frame.evq (m b : List Nat) {s : St ι γ ν} {q : List (Ev ι)} (h : ∀ i ∈ m, (i ∈ getIds { s with evq := q } ↔ i ∈ getIds s)) :
    Frame m b s { s with evq := q } :=
  ⟨rfl, fun _ _ => .rfl, h, fun _ _ _ => .rfl, rfl, fun _ h => h, le_refl _⟩

/-- Processing an event of others, or a request that nobody waits for any more. -/
theorem Frame.process {m b : List Nat} {c : Cfg ι γ ν} {s : St ι γ ν} {e : Ev ι} {q : List (Ev ι)} (hq : s.evq = e :: q)
    (he : ∀ i x, e = .got i x → i ∈ m → i ∉ s.waiting) : Frame m b s (doProcess c s) := by
  cases e with
  | put i =>
    simp only [doProcess, hq]
    refine (Frame.evq m b ?_).trans (Frame.trigGet m b c _)
    intro j _; simp [getIds, hq, inflight]
  | got i x =>
    simp only [doProcess, hq]
    obtain ⟨h1, h2, h3, h4, -, h7, ⟨l8, h8⟩, ⟨l, h5⟩⟩ := trigPut_same c { s with evq := q }
    have hg := Store.trigPut_getIds c { s with evq := q }
    have hp := Store.trigPut_putIds c { s with evq := q }
    generalize Verif.Store.trigPut c { s with evq := q } = s1 at h1 h2 h3 h4 h5 h7 h8 hg hp ⊢
    have hgid : ∀ j, (j ∈ getIds s ↔ j = i ∨ j ∈ getIds s1) := by
      intro j; rw [hg]; simp only [getIds, hq, inflight, List.mem_append, List.map_cons, List.mem_cons]; tauto
    have hacc : ∀ j ∈ s.accepted.map (·.1), j ∈ s1.accepted.map (·.1) := by
      intro j hj; rw [h5, List.map_append]; exact List.mem_append_left _ hj
    split
    · rename_i hw
      have him : i ∉ m := fun hm => he i x rfl hm hw
      refine ⟨?_, fun j _ => by simp only [h3], fun j hj => ?_, fun j _ _ => by simp only [h2], by simp only [hp], hacc, by simp only [h4]; exact le_refl _⟩
      · simp only [h1, mineOf_append, mineOf_not x him, List.append_nil]
      · rw [hgid]
        simp only [getIds, List.mem_append, List.map_append, List.map_cons, List.map_nil, List.mem_singleton]
        tauto
    · rename_i hw
      refine ⟨by simp only [h1], fun j _ => by simp only [h3], fun j hj => ?_, fun j _ hjw => ?_, by simp only [hp], hacc, by simp only [h4]; exact le_refl _⟩
      · rw [hgid]
        simp only [getIds, List.mem_append, List.map_append, List.map_cons, List.map_nil, List.mem_singleton]
        tauto
      · have : j ≠ i := fun h => hw (h ▸ hjw)
        simp [h2, this]

/-- Processing a request that is waited for. -/
theorem process_own {c : Cfg ι γ ν} {s : St ι γ ν} {i : Nat} {x : ι} {q : List (Ev ι)} (hq : s.evq = .got i x :: q) (hw : i ∈ s.waiting)
    (m b : List Nat) :
    (doProcess c s).delivered = s.delivered ++ [(i, x)] ∧ (doProcess c s).lost = s.lost ∧ (doProcess c s).waiting = s.waiting ∧
      (∀ j, (j ∈ getIds (doProcess c s) ↔ j ∈ getIds s)) ∧
      mineOf b ((doProcess c s).accepted ++ (doProcess c s).putQ) = mineOf b (s.accepted ++ s.putQ) ∧
      (∀ j ∈ s.accepted.map (·.1), j ∈ (doProcess c s).accepted.map (·.1)) ∧ (doProcess c s).nextId = s.nextId ∧ (doProcess c s).now = s.now := by
  simp only [doProcess, hq, if_pos hw]
  obtain ⟨h1, h2, h3, h4, h6, h7, ⟨l8, h8⟩, ⟨l, h5⟩⟩ := trigPut_same c { s with evq := q }
  have hg := Store.trigPut_getIds c { s with evq := q }
  have hp := Store.trigPut_putIds c { s with evq := q }
  generalize trigPut c { s with evq := q } = s1 at h1 h2 h3 h4 h5 h6 h7 h8 hg hp ⊢
  refine ⟨by rw [h1], h2, h3, fun j => ?_, by rw [hp], fun j hj => ?_, h4, h6⟩
  · have : j ∈ getIds s ↔ j = i ∨ j ∈ getIds s1 := by
      rw [hg]; simp only [getIds, hq, inflight, List.mem_append, List.map_cons, List.mem_cons]; tauto
    rw [this]
    simp only [getIds, List.mem_append, List.map_append, List.map_cons, List.map_nil, List.mem_singleton]
    tauto
  · rw [h5, List.map_append]; exact List.mem_append_left _ hj

theorem process_now (c : Cfg ι γ ν) (s : St ι γ ν) : (doProcess c s).now = s.now := by
  unfold doProcess
  split
  · rfl
  · exact (trigGet_same c _).2.2.2.2.1
  · have := (trigPut_same c { s with evq := ‹_› }).2.2.2.2.1
    split <;> simpa using this

theorem put_now (c : Cfg ι γ ν) (s : St ι γ ν) (x : ι) : (doPut c s x).now = s.now := (trigPut_same c _).2.2.2.2.1
theorem get_now (c : Cfg ι γ ν) (s : St ι γ ν) (g : γ) : (doGet c s g).now = s.now := (trigGet_same c _).2.2.2.2.1

end Verif.Windowed
