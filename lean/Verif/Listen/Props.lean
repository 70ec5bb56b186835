import Verif.Listen.Run

/-! # Property C69 -/

namespace Verif.Listen

open Spec

/-- Nothing is left to do in the instant: no granted request to process, no callback running. -/
def Quiet (cap : Option Nat) (s : St) : Prop := (step cap s .process).2 = [.impossible] ∧ (step cap s .ret).2 = [.impossible]

theorem quiet_iff {cap : Option Nat} {s : St} : Quiet cap s ↔ s.evs = [] ∧ s.busy = none := by
  constructor
  · rintro ⟨h1, h2⟩
    have hb : s.busy = none := by
      cases hb : s.busy with
      | none => rfl
      | some i => simp [step, hb] at h2
    refine ⟨?_, hb⟩
    cases hev : s.evs with
    | nil => rfl
    | cons e r =>
      cases e with
      | put p => simp [step, hb, hev] at h1
      | got g x =>
        exfalso
        simp only [step, hb, hev] at h1
        rcases tryPut_cases cap { s with evs := r, busy := none } with ⟨_, e⟩ | ⟨p, o, r', _, _, e⟩
        all_goals
          simp only [ne_eq, not_true_eq_false, if_false, deliver] at h1
          rw [e] at h1
          split at h1
          · simp at h1
          · split at h1 <;> simp at h1
  · rintro ⟨h1, h2⟩
    exact ⟨by simp [step, h1, h2], by simp [step, h2]⟩

/-- A listener that has begun and is not over waits if nothing is left to do. -/
theorem listening_waits {s : St} {tr : Trace} (h : Core s (effs tr) (Others tr)) {i : Nat} (hi : Listening tr i) (hb : s.busy = none) :
    ∃ g, s.lst i = .waiting g := by
  cases hl : s.lst i with
  | waiting g => exact ⟨g, rfl⟩
  | made => exact absurd hl ((h.begun i).1 hi.1)
  | calling => rw [(h.busy i).2 hl] at hb; cases hb
  | dead => exact absurd ((h.ended i).2 hl) hi.2

theorem listening_empty {cap : Option Nat} {s : St} {tr : Trace} (h : Core s (effs tr) (Others tr)) (ho : Owed cap s 0 0) {i : Nat}
    (hi : Listening tr i) (he : s.evs = []) (hb : s.busy = none) : s.items = [] := by
  obtain ⟨g, hg⟩ := listening_waits h hi hb
  have hm := (h.wait i g hg).2
  simp only [reqs, he, List.filterMap_nil, List.append_nil] at hm
  have h1 := ho.gets
  have h2 : nPuts s = 0 := by simp [nPuts, he]
  have h3 : 0 < s.getQ.length := List.length_pos_of_mem hm
  exact List.eq_nil_of_length_eq_zero (by omega)

/-! ## At the time -/

/-- Everything was handed over at its time, and what is not yet handed over is of now. -/
def Prompt (s : St) (E : List Eff) : Prop :=
  ∃ A, acc E = A ++ flow s ∧ List.Forall₂ OnTime (hand E) A ∧ ∀ x ∈ flow s, x.time = s.now

theorem Prompt.same {s s' : St} {E E' : List Eff} (h : Prompt s E) (h1 : flow s' = flow s) (h2 : s'.now = s.now) (h3 : acc E' = acc E)
    (h4 : hand E' = hand E) : Prompt s' E' := by
  obtain ⟨A, a, b, c⟩ := h
  exact ⟨A, by rw [h3, h1, a], by rw [h4]; exact b, by rw [h1, h2]; exact c⟩

theorem Prompt.tryPut {cap : Option Nat} {s : St} {E : List Eff} (h : Prompt s E) : Prompt (tryPut cap s).1 (E ++ (tryPut cap s).2) := by
  rcases tryPut_cases cap s with ⟨_, e⟩ | ⟨p, o, r, hp, _, e⟩
  · rw [e, List.append_nil]; exact h
  · rw [e]
    obtain ⟨A, a, b, c⟩ := h
    refine ⟨A, ?_, ?_, ?_⟩
    · simp only [acc, List.filterMap_append] at a ⊢
      rw [a]; simp [flow, gotOf, accOf, List.filterMap_cons]
    · simpa [hand, handOf, List.filterMap_cons] using b
    · intro x hx
      have : x ∈ flow s ∨ x = ⟨p, o, s.now⟩ := by simpa [flow, gotOf, List.filterMap_cons, or_assoc] using hx
      rcases this with hx | rfl
      · exact c x hx
      · rfl

theorem prompt_request {s : St} {E : List Eff} (h : Prompt s E) (lst : Nat → Lst) (who busy : Option Nat) {E' : List Eff} (h3 : acc E' = acc E)
    (h4 : hand E' = hand E) : Prompt (request { s with lst := lst, busy := busy } who) E' := by
  refine h.same ?_ ?_ h3 h4
  · unfold request; rw [tryGet_flow]; rfl
  · unfold request; rw [(tryGet_rest _).1]

theorem prompt_step {cap : Option Nat} {s : St} {tr : Trace} (hc : Core s (effs tr) (Others tr)) (ho : Owed cap s 0 0) (h : Prompt s (effs tr)) (op : Op)
    (ha : Attended ((op, (step cap s op).2) :: tr)) : Prompt (step cap s op).1 (effs ((op, (step cap s op).2) :: tr)) := by
  have imp : Prompt s (effs tr ++ [.impossible]) := h.same rfl rfl (by simp [acc, accOf, List.filterMap_cons]) (by simp [hand, handOf, List.filterMap_cons])
  have quiet : ∀ s', flow s' = flow s → s'.now = s.now → Prompt s' (effs tr ++ []) := fun s' h1 h2 => by rw [List.append_nil]; exact h.same h1 h2 rfl rfl
  have ended : ∀ (s' : St) i, flow s' = flow s → s'.now = s.now → Prompt s' (effs tr ++ [.ended i]) := fun s' i h1 h2 =>
    h.same h1 h2 (by simp [acc, accOf, List.filterMap_cons]) (by simp [hand, handOf, List.filterMap_cons])
  simp only [effs]
  cases op with
  | put o => exact Prompt.tryPut (s := { s with putQ := s.putQ ++ [(s.nPut, o)], nPut := s.nPut + 1 }) h
  | get => exact prompt_request h s.lst none s.busy (by simp [step]) (by simp [step])
  | cancelPut p => exact quiet _ rfl rfl
  | cancelGet g =>
    simp only [step]
    split
    · exact quiet _ rfl rfl
    · exact imp
  | listen => exact quiet _ rfl rfl
  | begin i =>
    simp only [step]
    split
    · exact prompt_request h _ (some i) s.busy (by simp [acc, accOf, List.filterMap_cons]) (by simp [hand, handOf, List.filterMap_cons])
    · exact imp
  | process =>
    simp only [step]
    split
    · exact imp
    · rename_i hb
      cases hev : s.evs with
      | nil => exact imp
      | cons e r =>
        cases e with
        | put p => exact quiet _ (by rw [tryGet_flow]; simp [flow, hev, gotOf, List.filterMap_cons]) (tryGet_rest _).1
        | got g x =>
          have hf : flow s = x :: flow { s with evs := r } := by simp [flow, hev, gotOf, List.filterMap_cons]
          have key : ∀ (lst : Nat → Lst) (busy : Option Nat) (e : Eff), accOf e = none → handOf e = some e → OnTime e x →
              Prompt ({ (tryPut cap { s with evs := r }).1 with lst := lst, busy := busy }) (effs tr ++ ((tryPut cap { s with evs := r }).2 ++ [e])) := by
            intro lst busy e h1 h2 h3
            have p1 : Prompt { s with evs := r } (effs tr ++ [e]) := by
              obtain ⟨A, a, b, c⟩ := h
              refine ⟨A ++ [x], ?_, ?_, fun y hy => c y (by rw [hf]; exact List.mem_cons_of_mem _ hy)⟩
              · rw [show acc (effs tr ++ [e]) = acc (effs tr) by simp [acc, h1, List.filterMap_cons], a, hf]; simp
              · rw [show hand (effs tr ++ [e]) = hand (effs tr) ++ [e] by simp [hand, h2, List.filterMap_cons]]
                exact List.rel_append b (.cons h3 .nil)
            have hh : hand (tryPut cap { s with evs := r }).2 = [] := by
              rcases tryPut_cases cap { s with evs := r } with ⟨_, e⟩ | ⟨p, o, r', _, _, e⟩ <;> rw [e] <;> rfl
            simp only [hand] at hh
            refine (p1.tryPut (cap := cap)).same rfl rfl ?_ ?_
            · simp [acc, h1, List.filterMap_cons]
            · simp only [hand, List.filterMap_append, hh, List.nil_append, List.append_nil]
          obtain ⟨e1, e2, e3, e4⟩ := tryPut_rest cap { s with evs := r }
          have hx : x.time = s.now := by
            obtain ⟨A, a, b, c⟩ := h
            exact c x (by rw [hf]; exact List.mem_cons_self)
          simp only [deliver]
          split
          · exact key _ _ (.taken g x.put) rfl rfl trivial
          · rename_i i _
            split
            · exact key _ _ (.called i x.put (clean x.obj) _) rfl rfl (by simp only [OnTime, e1]; exact hx)
            · exact key _ _ (.lost x.put) rfl rfl trivial
  | ret =>
    simp only [step]
    cases hb : s.busy with
    | none => exact imp
    | some i => exact prompt_request h _ (some i) none (by simp) (by simp)
  | raise =>
    simp only [step]
    cases hb : s.busy with
    | none => exact imp
    | some i => exact ended _ i rfl rfl
  | stop i =>
    simp only [step]
    split
    · exact imp
    · split
      · exact ended _ i rfl rfl
      · exact imp
  | advance d =>
    simp only [step] at ha ⊢
    split at ha
    · rename_i hd
      rw [if_pos hd, List.append_nil]
      obtain ⟨A, a, b, c⟩ := h
      refine ⟨A, a, b, fun x hx => ?_⟩
      rcases lt_or_eq_of_le hd.1 with h0 | h0
      · obtain ⟨i, hi⟩ := ha.1 h0
        have := listening_empty hc ho hi hd.2.1 hd.2.2.1
        have hx' : x ∈ flow s := hx
        simp [flow, hd.2.1, this] at hx'
      · show x.time = s.now + d
        rw [← h0, add_zero]; exact c x hx
    · rename_i hd
      rw [if_neg hd]; exact imp

theorem Reached.prompt {cap : Option Nat} {t : Rat} {s : St} {tr : Trace} (h : Reached cap t s tr) (ha : Attended tr) : Prompt s (effs tr) := by
  obtain ⟨ops, e⟩ := h
  have ht : ∀ (e : Op × List Eff) (tr : Trace), Attended (e :: tr) → Attended tr := by
    intro e tr h
    obtain ⟨op, l⟩ := e
    cases op with
    | advance d =>
      cases l with
      | nil => exact h.2
      | cons _ _ => exact h
    | _ => exact h
  have H : ∀ (ops : List Op) (s : St) (tr : Trace), Core s (effs tr) (Others tr) → Owed cap s 0 0 → (Attended tr → Prompt s (effs tr)) →
      Attended (run cap s tr ops).2 → Prompt (run cap s tr ops).1 (effs (run cap s tr ops).2) := by
    intro ops
    induction ops with
    | nil => intro s tr _ _ h ha; exact h ha
    | cons op ops ih =>
      intro s tr hc ho h ha
      exact ih _ _ (core_step hc op) (owed_step ho op) (fun hx => prompt_step hc ho (h (ht _ _ hx)) op hx) ha
  have h0 : Reached cap t (init t) [] := ⟨[], rfl⟩
  have := H ops (init t) [] h0.inv.1 h0.inv.2 (fun _ => ⟨[], rfl, .nil, by simp [flow, init]⟩)
  rw [e] at this
  exact this ha

/-! ## The property -/

/-- **C69 (once, in order, as it is).** The messages are handed over in the order in which the store accepted them, each at most once, and
not before; a callback gets the content of its message. -/
theorem c69_once {cap : Option Nat} {t : Rat} {s : St} {tr : Trace} (h : Reached cap t s tr) :
    ((accepted tr).map (·.put)).Nodup ∧ ∃ A B, accepted tr = A ++ B ∧ List.Forall₂ Fits (handed tr) A := by
  obtain ⟨hc, _⟩ := h.inv
  obtain ⟨A, h1, h2⟩ := hc.flow
  exact ⟨(List.nodup_append.1 hc.ids).1, A, _, h1, h2⟩

/-- **C69 (nothing stays).** If somebody listens and nothing is left to do in the instant, all messages have been handed over, and no put
waits. -/
theorem c69_all {cap : Option Nat} (hcap : cap ≠ some 0) {t : Rat} {s : St} {tr : Trace} (h : Reached cap t s tr) (hq : Quiet cap s) {i : Nat}
    (hi : Listening tr i) : List.Forall₂ Fits (handed tr) (accepted tr) ∧ s.putQ = [] := by
  obtain ⟨hc, ho⟩ := h.inv
  obtain ⟨he, hb⟩ := quiet_iff.1 hq
  have h0 := listening_empty hc ho hi he hb
  constructor
  · obtain ⟨A, h1, h2⟩ := hc.flow
    rw [show flow s = [] by simp [flow, he, h0], List.append_nil] at h1
    show List.Forall₂ Fits (hand (effs tr)) (acc (effs tr))
    rw [h1]; exact h2
  · apply List.eq_nil_of_length_eq_zero
    cases hx : cap with
    | none => have := ho.free hx; omega
    | some c =>
      have := ho.puts c hx
      have hg : nGots s = 0 := by simp [nGots, he]
      have hp : 0 < c := Nat.pos_of_ne_zero fun e => hcap (by rw [hx, e])
      rw [h0] at this
      simp only [List.length_nil] at this
      omega

/-- **C69 (to the callbacks).** If only listeners take messages and none of them is over, every message is handed to a callback. -/
theorem c69_called {cap : Option Nat} {t : Rat} {s : St} {tr : Trace} (h : Reached cap t s tr) (ho : Op.get ∉ tr.map (·.1))
    (he : ∀ i, .ended i ∉ effs tr) : ∀ e ∈ handed tr, ∃ i p o t', e = .called i p o t' := by
  obtain ⟨hc, _⟩ := h.inv
  intro e hm
  obtain ⟨e', h1, h2⟩ := List.mem_filterMap.1 hm
  cases e' with
  | called i p o t' => simp only [handOf, Option.some.injEq] at h2; exact ⟨i, p, o, t', h2.symm⟩
  | taken g p => exact absurd (hc.taken g p h1) ho
  | lost p =>
    obtain ⟨i, hi⟩ := hc.lost p h1
    exact absurd hi (he i)
  | accepted _ _ _ => simp [handOf] at h2
  | begun _ => simp [handOf] at h2
  | ended _ => simp [handOf] at h2
  | impossible => simp [handOf] at h2

/-- **C69 (at once).** If somebody listens whenever time goes on, callbacks are called at the time at which the store accepted the message. -/
theorem c69_time {cap : Option Nat} {t : Rat} {s : St} {tr : Trace} (h : Reached cap t s tr) (ha : Attended tr) :
    ∃ A B, accepted tr = A ++ B ∧ List.Forall₂ (fun e x => Fits e x ∧ OnTime e x) (handed tr) A := by
  obtain ⟨hc, _⟩ := h.inv
  obtain ⟨A, h1, h2⟩ := hc.flow
  obtain ⟨A', h1', h2', _⟩ := h.prompt ha
  have hA : A = A' := by rw [h1] at h1'; exact List.append_cancel_right h1'
  subst hA
  refine ⟨A, _, h1, ?_⟩
  clear h1 h1'
  show List.Forall₂ _ (hand (effs tr)) A
  generalize hand (effs tr) = H at h2 h2' ⊢
  induction h2 with
  | nil => exact .nil
  | cons a _ ih =>
    cases h2' with
    | cons b bs => exact .cons ⟨a, b⟩ (ih bs)

/-- **C69.** Only listeners take messages, none is over, somebody listens whenever time goes on and now, and nothing is left to do: the
callbacks were called with all the messages, in order, each at its time. -/
theorem c69_exactly {cap : Option Nat} (hcap : cap ≠ some 0) {t : Rat} {s : St} {tr : Trace} (h : Reached cap t s tr) (ho : Op.get ∉ tr.map (·.1))
    (he : ∀ i, .ended i ∉ effs tr) (ha : Attended tr) (hq : Quiet cap s) {i : Nat} (hi : Listening tr i) :
    List.Forall₂ (fun e x => ∃ i o, e = Eff.called i x.put o x.time ∧ Seen x.obj o) (handed tr) (accepted tr) := by
  obtain ⟨A, B, h1, h2⟩ := c69_time h ha
  have hl := (c69_all hcap h hq hi).1.length_eq
  have hB : B = [] := by
    apply List.eq_nil_of_length_eq_zero
    have := h2.length_eq
    rw [h1, List.length_append] at hl
    omega
  rw [h1, hB, List.append_nil]
  have hcalled := c69_called h ho he
  clear h1 hl
  generalize handed tr = H at *
  induction h2 with
  | nil => exact .nil
  | cons a _ ih =>
    rename_i e x _ _ _
    refine .cons ?_ (ih (fun e hm => hcalled e (List.mem_cons_of_mem _ hm)))
    obtain ⟨j, p, o, t', rfl⟩ := hcalled e List.mem_cons_self
    obtain ⟨⟨rfl, hs, _⟩, ht⟩ := a
    simp only [OnTime] at ht
    exact ⟨j, o, by rw [ht], hs⟩

/-- A check that listener `i` attends. -/
def attendedBy (i : Nat) : Trace → Bool
  | [] => true
  | (.advance _, []) :: tr => decide (.begun i ∈ effs tr) && decide (.ended i ∉ effs tr) && attendedBy i tr
  | _ :: tr => attendedBy i tr

theorem attendedBy_spec {i : Nat} : ∀ {tr : Trace}, attendedBy i tr = true → Attended tr
  | [], _ => trivial
  | (op, l) :: tr, h => by
    cases op with
    | advance d =>
      cases l with
      | nil =>
        simp only [attendedBy, Bool.and_eq_true, decide_eq_true_eq] at h
        exact ⟨fun _ => ⟨i, h.1⟩, attendedBy_spec h.2⟩
      | cons _ _ => exact attendedBy_spec (tr := tr) h
    | _ => exact attendedBy_spec (tr := tr) h

/-- Two listeners on a store with one place; three puts in one instant, of which one waits, one more from within a callback, one later. -/
def demo : List Op := [.listen, .listen, .begin 0, .begin 1, .put (.message (.dict 1)), .put (.other 2), .put (.message (.dict 3)), .process, .process, .put (.dict 4),
  .ret, .process, .process, .ret, .process, .process, .ret, .process, .process, .ret, .process, .advance 2, .put (.message (.dict 5)), .process, .process, .ret]

theorem demo_handed : handed (run (some 1) (init 0) [] demo).2 = [.called 0 0 (.dict 1) 0, .called 1 1 (.content (.wrap (.other 2)) none) 0,
    .called 0 2 (.dict 3) 0, .called 1 3 (.content (.wrap (.dict 4)) none) 0, .called 0 4 (.dict 5) 2] := by decide +kernel

example : Op.get ∉ (run (some 1) (init 0) [] demo).2.map (·.1) ∧ (∀ e ∈ effs (run (some 1) (init 0) [] demo).2, ∀ i, e ≠ .ended i) ∧
    Attended (run (some 1) (init 0) [] demo).2 ∧ Quiet (some 1) (run (some 1) (init 0) [] demo).1 ∧ Listening (run (some 1) (init 0) [] demo).2 1 := by
  refine ⟨by decide +kernel, ?_, ?_, ?_, ?_⟩
  · have : (effs (run (some 1) (init 0) [] demo).2).all (fun e => match e with | .ended _ => false | _ => true) = true := by decide +kernel
    intro e he i hi
    have := List.all_eq_true.1 this e he
    rw [hi] at this
    cases this
  · exact attendedBy_spec (i := 0) (by decide +kernel)
  · exact ⟨by decide +kernel, by decide +kernel⟩
  · exact ⟨by decide +kernel, by decide +kernel⟩

theorem tryGet_items (s : St) : (tryGet s).items.length ≤ s.items.length := by
  rcases tryGet_cases s with ⟨_, h⟩ | h
  · rw [h]
  · unfold tryGet
    split
    · rename_i h2; rw [h2]; simp
    · exact le_refl _

theorem tryPut_items {c : Nat} (s : St) (h : s.items.length ≤ c) : (tryPut (some c) s).1.items.length ≤ c := by
  rcases tryPut_cases (some c) s with ⟨_, h2⟩ | ⟨p, o, r, _, h2, h3⟩
  · rw [h2]; exact h
  · rw [h3]
    simp only [room, decide_eq_true_eq] at h2
    simp only [List.length_append, List.length_singleton]
    omega

theorem step_items {c : Nat} (s : St) (op : Op) (h : s.items.length ≤ c) : (step (some c) s op).1.items.length ≤ c := by
  have req : ∀ (s : St) (who : Option Nat), s.items.length ≤ c → (request s who).items.length ≤ c := fun s who h =>
    le_trans (tryGet_items _) h
  cases op with
  | put o => exact tryPut_items _ h
  | get => exact req s none h
  | cancelPut p => exact h
  | cancelGet g => simp only [step]; split <;> exact h
  | listen => exact h
  | «begin» i => simp only [step]; split; exacts [req _ _ h, h]
  | process =>
    simp only [step]
    split
    · exact h
    · split
      · exact h
      · exact le_trans (tryGet_items _) h
      · rename_i g x r _
        have := tryPut_items (c := c) { s with evs := r } h
        unfold deliver
        dsimp only
        split
        · exact this
        · split <;> exact this
  | ret => simp only [step]; split; exacts [h, req _ _ h]
  | raise => simp only [step]; split <;> exact h
  | stop i =>
    simp only [step]
    split
    · exact h
    · split <;> exact h
  | advance d => simp only [step]; split <;> exact h

/-- **C69 (limited stores).** However many send and listen, the store never holds more messages than it has places for. -/
theorem c69_capacity (c : Nat) (t : Rat) (ops : List Op) : (run (some c) (init t) [] ops).1.items.length ≤ c := by
  have : ∀ (ops : List Op) (s : St) (tr : Trace), s.items.length ≤ c → (run (some c) s tr ops).1.items.length ≤ c := by
    intro ops
    induction ops with
    | nil => exact fun s tr h => h
    | cons op ops ih => exact fun s tr h => ih _ _ (step_items s op h)
  exact this ops _ _ (Nat.zero_le _)

example : (run (some 1) (init 0) [] [.put (.other 2), .put (.other 3)]).1.items.length = 1 ∧
    (run (some 1) (init 0) [] [.put (.other 2), .put (.other 3)]).1.putQ.length = 1 := by decide +kernel

/-- What was given to `make_put` is what the callback gets. -/
theorem c69_said (o o' : Obj) : Said o o' ↔ clean (makePut o) = o' := by
  cases o <;> simp [Said, clean, makePut, eq_comm]

/-- But a text put into the store directly looks different from one sent with `make_put`: one is data, the other the message. -/
theorem c69_texts (n : Nat) : clean (.other n) ≠ clean (makePut (.other n)) := by simp [clean, makePut]

/-- **C69 is false of the code**: a listener that was stopped keeps its request, which takes the next message from the listener that
replaced it. -/
theorem c69_stopped : ∃ ops, Op.get ∉ ops ∧ handed (run none (init 0) [] ops).2 = [.lost 0, .called 1 1 (.dict 8) 0] ∧
    accepted (run none (init 0) [] ops).2 = [⟨0, .message (.dict 7), 0⟩, ⟨1, .message (.dict 8), 0⟩] ∧ Listening (run none (init 0) [] ops).2 1 :=
  ⟨[.listen, .begin 0, .stop 0, .listen, .begin 1, .put (.message (.dict 7)), .put (.message (.dict 8)), .process, .process, .process, .process],
    by decide, by decide +kernel, by decide +kernel, by decide +kernel, by decide +kernel⟩

/-- So does one whose request had been granted when it was stopped. -/
theorem c69_stopped_late : ∃ ops, Op.get ∉ ops ∧ handed (run none (init 0) [] ops).2 = [.lost 0] ∧
    accepted (run none (init 0) [] ops).2 = [⟨0, .message (.dict 7), 0⟩] :=
  ⟨[.listen, .begin 0, .put (.message (.dict 7)), .process, .stop 0, .process], by decide, by decide +kernel, by decide +kernel⟩

end Verif.Listen
