import Verif.Windowed.Run
import Verif.Windowed.Spec

/-! # C41 -/

namespace Verif.Windowed

open Verif.Store (Cfg St Ev doGet doPut doInterrupt doProcess doAdvance Ids getIds putIds inflight trigPut trigGet enqPut enqGet
  SelPerm onTheirWay fifoCfg)

variable {ι γ ν : Type} [DecidableEq ν]

/-- A fresh store and a routine that has not started. -/
def fresh (c : Cfg ι γ ν) (cap : Option Nat) (t0 : Rat) : W ι γ ν := init (Store.init c cap t0)

theorem fresh_inv (c : Cfg ι γ ν) (p : Par γ) (cap : Option Nat) (t0 : Rat) : Inv p (fresh c cap t0) := Inv.init p (Ids.init c cap t0)

theorem run_inv (c : Cfg ι γ ν) (p : Par γ) (cap : Option Nat) (t0 : Rat) (ops : List (Op ι γ)) {ph : Phase}
    (h : (run c p (fresh c cap t0) ops).phase = ph) (hne : ph ≠ .crashed) : Inv p (run c p (fresh c cap t0) ops) :=
  (fresh_inv c p cap t0).run ops (by rw [h]; exact hne)

/-- **C41, the result.** A routine that ends returns exactly what the store handed to its requests, in the order it was handed
over, and every one of its requests but the last was served; the last one was not. -/
theorem c41_returns (c : Cfg ι γ ν) (p : Par γ) (cap : Option Nat) (t0 : Rat) (ops : List (Op ι γ))
    (h : (run c p (fresh c cap t0) ops).phase = .finished) :
    let w := run c p (fresh c cap t0) ops
    w.returned = some (valuesFor w.mine w.st.delivered) ∧ valuesFor w.mine w.st.delivered ≠ [] ∧
      (∀ i ∈ w.mine, i ≠ w.cur → ∃ x, (i, x) ∈ w.st.delivered) ∧ ∀ x, (w.cur, x) ∉ w.st.delivered := by
  have hi := run_inv c p cap t0 ops h (by decide)
  generalize run c p (fresh c cap t0) ops = w at h hi ⊢
  have hd := (hi.dead (by rw [h]; rfl)).2
  have hg : valuesFor w.mine w.st.delivered = w.taken.map (·.2) := hi.gotN (.inl hd)
  have hr : w.taken.map (·.2) = w.result := by
    have := hi.res
    rw [hi.noback (.inr (.inr h))] at this
    simpa using this
  obtain ⟨h1, a, h2, -⟩ := hi.fin h
  refine ⟨by rw [h1, hg, hr], ?_, fun i hm hne => ?_, fun x hx => hd (List.mem_map.2 ⟨_, hx, rfl⟩)⟩
  · rw [hg]
    intro hn
    have : w.taken = [] := by simpa using hn
    rw [this] at h2
    unfold anchor at h2
    split at h2 <;> simp at h2
  · obtain ⟨q, hq, rfl⟩ := List.mem_map.1 (hi.older i hm hne)
    exact ⟨q.2, hq⟩

/-- **C41, the window.** The routine returns exactly one timeout after its first item (or after its last one, if each item
restarts the window); all items came in that time. While it waits, time never gets beyond that. -/
theorem c41_window (c : Cfg ι γ ν) (p : Par γ) (cap : Option Nat) (t0 : Rat) (ops : List (Op ι γ)) :
    let w := run c p (fresh c cap t0) ops
    (w.phase = .finished → ∃ t, windowFrom p.reset (w.taken.map (·.1)) = some t ∧ w.endAt = some (t + p.timeout)) ∧
    (w.phase = .waiting → w.taken ≠ [] → ∃ t, windowFrom p.reset (w.taken.map (·.1)) = some t ∧ w.st.now ≤ t + p.timeout) ∧
    (w.phase ≠ .crashed →
      (w.taken.map (·.1)).IsChain (fun a b => a ≤ b ∧ (p.reset = true → b ≤ a + p.timeout)) ∧
      (p.reset = false → ∀ a ∈ (w.taken.map (·.1)).head?, ∀ b ∈ w.taken.map (·.1), b ≤ a + p.timeout)) := by
  have hA : ∀ (l : List (Rat × ι)), windowFrom p.reset (l.map (·.1)) = (anchor p.reset l).map (·.1) := by
    intro l; unfold windowFrom anchor; split <;> simp
  refine ⟨fun h => ?_, fun h ht => ?_, fun h => ?_⟩
  · have hi := run_inv c p cap t0 ops h (by decide)
    obtain ⟨-, a, h2, h3⟩ := hi.fin h
    exact ⟨a.1, by rw [hA, h2]; rfl, h3⟩
  · have hi := run_inv c p cap t0 ops h (by decide)
    obtain ⟨a, h1, h2, h3, h4⟩ := hi.dl1 h ht
    exact ⟨a.1, by rw [hA, h1]; rfl, h3⟩
  · have hi := run_inv c p cap t0 ops rfl h
    refine ⟨by rw [List.isChain_map]; exact hi.chain, fun hr a ha b hb => ?_⟩
    rw [List.head?_map] at ha
    obtain ⟨a', ha', rfl⟩ := Option.map_eq_some_iff.1 ha
    obtain ⟨b', hb', rfl⟩ := List.mem_map.1 hb
    exact hi.within hr a' ha' b' hb'

/-- **C41, giving back.** When the clean-up is over, exactly the items that the store had handed to the routine have entered the
store again, in the order they were received. -/
theorem c41_gives_back (c : Cfg ι γ ν) (p : Par γ) (cap : Option Nat) (t0 : Rat) (ops : List (Op ι γ))
    (h : (run c p (fresh c cap t0) ops).phase = .cancelled) :
    let w := run c p (fresh c cap t0) ops
    valuesFor (w.back.map (·.1)) w.st.accepted = valuesFor w.mine w.st.delivered := by
  have hi := run_inv c p cap t0 ops h (by decide)
  generalize run c p (fresh c cap t0) ops = w at h hi ⊢
  have hd := (hi.dead (by rw [h]; rfl)).2
  have hg : valuesFor w.mine w.st.delivered = w.taken.map (·.2) := hi.gotN (.inl hd)
  have hres := hi.res
  rw [hi.canc h, List.append_nil] at hres
  have hacc : mineOf (w.back.map (·.1)) w.st.accepted = w.back := by
    have hq : mineOf (w.back.map (·.1)) w.st.putQ = [] := by
      unfold mineOf
      rw [List.filter_eq_nil_iff]
      intro q hq hm
      have ha := hi.backA q.1 (by simpa using hm) (.inr h)
      have hnd := (List.nodup_append.1 hi.ids.nd).2.1
      rw [putIds, List.map_append] at hnd
      exact (List.nodup_append.1 hnd).2.2 _ ha _ (List.mem_map.2 ⟨q, hq, rfl⟩) rfl
    have := hi.puts
    rw [mineOf_append, hq, List.append_nil] at this
    exact this
  show valuesFor (w.back.map (·.1)) w.st.accepted = _
  rw [hg, hres]
  show (mineOf (w.back.map (·.1)) w.st.accepted).map (·.2) = _
  rw [hacc]

/-- The store underneath went through a history of its own. -/
theorem store_history (c : Cfg ι γ ν) (p : Par γ) (w : W ι γ ν) (ops : List (Op ι γ)) :
    ∃ l, (run c p w ops).st = Store.run c w.st l := by
  have hgb : ∀ w : W ι γ ν, ∃ l, (giveBack c w).st = Store.run c w.st l := by
    intro w; unfold giveBack; split
    · exact ⟨[], rfl⟩
    · rename_i x r _; exact ⟨[.put x], rfl⟩
  have hround : ∀ w : W ι γ ν, ∃ l, (round c p w).st = Store.run c w.st l := by
    intro w; unfold round; split
    · split
      · exact ⟨[], rfl⟩
      · exact ⟨[.get p.g], rfl⟩
    · exact ⟨[.get p.g], rfl⟩
  have hstep : ∀ (w : W ι γ ν) op, ∃ l, (step c p w op).st = Store.run c w.st l := by
    intro w op
    unfold step
    split
    · exact ⟨[], rfl⟩
    · cases op with
      | start => simp only; split; exacts [hround w, ⟨[], rfl⟩]
      | put x => exact ⟨[.put x], rfl⟩
      | get g => exact ⟨[.get g], rfl⟩
      | interrupt id => simp only; split; exacts [⟨[], rfl⟩, ⟨[.interrupt id], rfl⟩]
      | process =>
        simp only [process]
        split
        · exact ⟨[], rfl⟩
        · split
          · exact ⟨[], rfl⟩
          · split
            · split <;> exact ⟨[.process], rfl⟩
            · split
              · obtain ⟨l, hl⟩ := hgb { w with st := doProcess c w.st, cond := w.cond.map (· - 1) }
                exact ⟨.process :: l, hl⟩
              · exact ⟨[.process], rfl⟩
      | timer => simp only [timer]; split <;> exact ⟨[], rfl⟩
      | resume =>
        simp only
        split
        · unfold resume
          split
          · exact ⟨[.interrupt w.cur], rfl⟩
          · rename_i x _
            obtain ⟨l, hl⟩ := hround { w with need := true, result := w.result ++ [x], taken := w.taken ++ [(w.st.now, x)] }
            exact ⟨l, hl⟩
        · exact ⟨[], rfl⟩
      | advance t => simp only [advance]; split; exacts [⟨[.advance t], rfl⟩, ⟨[], rfl⟩]
      | cancel =>
        simp only [cancel]
        split
        · split
          · obtain ⟨l, hl⟩ := hgb { w with st := doInterrupt w.st w.cur }
            exact ⟨.interrupt w.cur :: l, hl⟩
          · exact ⟨[], rfl⟩
        · exact ⟨[], rfl⟩
        · exact ⟨[], rfl⟩
  induction ops generalizing w with
  | nil => exact ⟨[], rfl⟩
  | cons op ops ih =>
    obtain ⟨l1, h1⟩ := hstep w op
    obtain ⟨l2, h2⟩ := ih (step c p w op)
    refine ⟨l1 ++ l2, ?_⟩
    rw [run_cons, h2, h1, Store.run_append]

theorem split_perm (m : List Nat) (l : List (Nat × ι)) : (valuesFor m l ++ valuesOfOthers m l).Perm (l.map (·.2)) := by
  unfold valuesFor valuesOfOthers
  rw [← List.map_append]
  refine List.Perm.map _ ?_
  have := List.filter_append_perm (fun q : Nat × ι => decide (q.1 ∈ m)) l
  simpa using this

/-- **C41, conservation.** After a clean-up the account of the store is as if the routine had not been there: what others put in
is in the store, on its way, was handed to others, or was lost. -/
theorem c41_conserved [DecidableEq ι] (c : Cfg ι γ ν) (hsel : SelPerm c) (p : Par γ) (cap : Option Nat) (t0 : Rat) (ops : List (Op ι γ))
    (h : (run c p (fresh c cap t0) ops).phase = .cancelled) :
    let w := run c p (fresh c cap t0) ops
    (valuesOfOthers (w.back.map (·.1)) w.st.accepted).Perm
      (w.st.items ++ onTheirWay w.st ++ valuesOfOthers w.mine w.st.delivered ++ w.st.lost.map (·.2)) := by
  have hgb := c41_gives_back c p cap t0 ops h
  obtain ⟨l, hl⟩ := store_history c p (fresh c cap t0) ops
  have hcons := Store.c39_conservation c hsel cap t0 l
  have hl' : (run c p (fresh c cap t0) ops).st = Store.run c (Store.init c cap t0) l := hl
  rw [← hl'] at hcons
  generalize run c p (fresh c cap t0) ops = w at hgb hcons ⊢
  have h1 := split_perm (w.back.map (·.1)) w.st.accepted
  have h2 := split_perm w.mine w.st.delivered
  simp only at hgb hcons ⊢
  rw [hgb] at h1
  have h3 := h1.trans hcons
  rw [List.perm_iff_count] at h2 h3 ⊢
  intro a
  have := h2 a
  have := h3 a
  simp only [List.count_append] at *
  omega

/-- A request that is gone stays gone. -/
theorem gone_step {c : Cfg ι γ ν} {p : Par γ} {w : W ι γ ν} (h : Inv p w) (ho : w.phase.over = true) (hg : w.cur ∉ getIds w.st)
    (op : Op ι γ) (hc : (step c p w op).phase ≠ .crashed) :
    (step c p w op).phase.over = true ∧ (step c p w op).cur ∉ getIds (step c p w op).st := by
  have hni : w.phase ≠ .idle := by rintro he; rw [he] at ho; cases ho
  have hnw : w.phase ≠ .waiting := by rintro he; rw [he] at ho; cases ho
  have hnc : w.phase ≠ .crashed := by rintro he; rw [he] at ho; cases ho
  have hm := h.curM hni
  have hfr : ∀ {s' : St ι γ ν}, Frame w.mine (w.back.map (·.1)) w.st s' → w.cur ∉ getIds s' := fun hf hx => hg ((hf.gid _ hm).1 hx)
  unfold step at hc ⊢
  rw [if_neg hnc] at hc ⊢
  cases op with
  | start => simp only; rw [if_neg hni]; exact ⟨ho, hg⟩
  | put x => exact ⟨ho, hfr (Frame.put x h.lt)⟩
  | get g => exact ⟨ho, hfr (Frame.get g h.lt)⟩
  | interrupt id =>
    simp only
    split
    · exact ⟨ho, hg⟩
    · rename_i hn
      exact ⟨ho, hfr (Frame.interrupt (fun hx => hn (.inl hx)) (fun hx => hn (.inr hx)))⟩
  | process =>
    simp only [process]
    split
    · exact ⟨ho, hg⟩
    · cases hq : w.st.evq with
      | nil => exact ⟨ho, hg⟩
      | cons e q =>
        have hf : Frame w.mine (w.back.map (·.1)) w.st (doProcess c w.st) := by
          refine Frame.process hq ?_
          intro j y hj hjm hjw
          rw [hj] at hq
          by_cases hjc : j = w.cur
          · exact (h.dead ho).1 (hjc ▸ hjw)
          · exact inflight_not_delivered h.ids hq (h.older j hjm hjc)
        cases e with
        | got i x => simp only; rw [if_neg (fun hx => hnw hx.1)]; exact ⟨ho, hfr hf⟩
        | put i =>
          simp only
          split
          · unfold giveBack
            split
            · exact ⟨rfl, hfr hf⟩
            · refine ⟨rfl, hfr (hf.trans (Frame.put _ ?_))⟩
              exact fun j hj => lt_of_lt_of_le (h.lt j hj) hf.nxt
          · exact ⟨ho, hfr hf⟩
  | timer => simp only [timer]; rw [if_neg (fun hx => hnw hx.1)]; exact ⟨ho, hg⟩
  | resume => simp only; rw [if_neg (fun hx => hnw hx.1)]; exact ⟨ho, hg⟩
  | advance t =>
    simp only [advance]
    split
    · exact ⟨ho, hfr (Frame.advance _ _ _ t)⟩
    · exact ⟨ho, hg⟩
  | cancel =>
    simp only [cancel] at hc ⊢
    cases hp : w.phase with
    | returning => simp only [hp] at hc; exact absurd rfl hc
    | waiting => exact absurd hp hnw
    | finished => exact ⟨by simp only [hp]; rfl, hg⟩
    | cancelled => exact ⟨by simp only [hp]; rfl, hg⟩
    | idle => exact absurd hp hni
    | crashed => exact absurd hp hnc

/-- The end of the routine, with no item on its way to it. -/
theorem gone_end {p : Par γ} {w : W ι γ ν} (h : Inv p w) (hp : w.phase = .waiting) (hd : w.cur ∉ w.st.delivered.map (·.1))
    (hi : w.cur ∉ (inflight w.st.evq).map (·.1)) : w.cur ∉ getIds (doInterrupt w.st w.cur) := by
  have hl := (h.curW hp).2.2
  have hnf : w.cur ∉ (w.st.getQ.filter fun q => decide (q.1 ≠ w.cur)).map (·.1) := by
    simp only [List.mem_map, List.mem_filter, decide_eq_true_eq, not_exists, not_and]
    exact fun q hq he => hq.2 he
  simp only [getIds, doInterrupt, List.mem_append, not_or]
  exact ⟨hnf, hi, hd, hl⟩

/-- **C41, the part on losses that holds.** If the routine never ends, and is never interrupted, while an item is on its way to
it, no item handed to one of its requests is ever lost. Missing: exactly those moments, where items are lost (see
`c41_lost_at_the_end`, `c41_interrupt_crashes`). -/
theorem c41_no_loss_partial (c : Cfg ι γ ν) (p : Par γ) (cap : Option Nat) (t0 : Rat) (ops : List (Op ι γ))
    (hl : NeverLate c p (fresh c cap t0) ops = true) (hc : (run c p (fresh c cap t0) ops).phase ≠ .crashed) :
    let w := run c p (fresh c cap t0) ops
    valuesFor w.mine w.st.lost = [] := by
  have key : ∀ (ops : List (Op ι γ)) (w : W ι γ ν), Inv p w → (w.phase.over = true → w.cur ∉ getIds w.st) →
      NeverLate c p w ops = true → (run c p w ops).phase ≠ .crashed →
      Inv p (run c p w ops) ∧ ((run c p w ops).phase.over = true → (run c p w ops).cur ∉ getIds (run c p w ops).st) := by
    intro ops
    induction ops with
    | nil => intro w h hg _ _; exact ⟨h, hg⟩
    | cons op ops ih =>
      intro w h hg hl hc
      rw [run_cons] at hc ⊢
      simp only [NeverLate, Bool.and_eq_true] at hl
      have hsc : (step c p w op).phase ≠ .crashed := by
        intro hx; rw [run_crashed c p hx] at hc; exact hc hx
      refine ih _ (h.step op hsc) ?_ hl.2 hc
      by_cases ho : w.phase.over = true
      · exact fun _ => (gone_step h ho (hg ho) op hsc).2
      · have hnc : w.phase ≠ .crashed := by
          intro he; unfold step at hsc; rw [if_pos he] at hsc; exact hsc he
        have hgbcur : ∀ w : W ι γ ν, (giveBack c w).cur = w.cur := by intro w; unfold giveBack; split <;> rfl
        have hround : ∀ w : W ι γ ν, (round c p w).phase.over = false := by
          intro w; unfold round; split
          · split <;> rfl
          · rfl
        unfold step at hsc ⊢
        rw [if_neg hnc] at hsc ⊢
        intro ho'
        cases op with
        | start =>
          simp only at ho' ⊢
          split at ho'
          · rw [hround] at ho'; cases ho'
          · exact absurd ho' ho
        | put x => exact absurd ho' ho
        | get g => exact absurd ho' ho
        | interrupt id => simp only at ho'; split at ho' <;> exact absurd ho' ho
        | process =>
          simp only [process] at ho'
          split at ho'
          · exact absurd ho' ho
          · split at ho'
            · exact absurd ho' ho
            · split at ho'
              · split at ho' <;> exact absurd ho' ho
              · split at ho'
                · rename_i hr; rw [hr.1] at ho; exact absurd rfl ho
                · exact absurd ho' ho
        | timer => simp only [timer] at ho'; split at ho' <;> exact absurd ho' ho
        | advance t => simp only [advance] at ho'; split at ho' <;> exact absurd ho' ho
        | resume =>
          simp only at ho' ⊢
          split at ho'
          · rename_i hpc
            rw [if_pos hpc]
            unfold resume at ho' ⊢
            cases hv : valueOf w.st w.cur with
            | none =>
              refine gone_end h hpc.1 (valueOf_none.1 hv) ?_
              intro hx
              obtain ⟨q, hq, he⟩ := List.mem_map.1 hx
              have := List.all_eq_true.1 hl.1 q hq
              exact absurd he (by simpa using this)
            | some x =>
              simp only [hv] at ho'
              rw [hround] at ho'; cases ho'
          · exact absurd ho' ho
        | cancel =>
          simp only [cancel] at ho' ⊢
          cases hp : w.phase with
          | waiting =>
            simp only [hp] at ho' ⊢
            split at ho'
            · rename_i hn
              rw [if_pos hn]
              have hfin : w.cur ∉ getIds (doInterrupt w.st w.cur) := by
                refine gone_end h hp (h.condN hp hn) ?_
                intro hx
                obtain ⟨q, hq, he⟩ := List.mem_map.1 hx
                have := List.all_eq_true.1 hl.1 q hq
                exact absurd he (by simpa using this)
              rw [hgbcur]
              unfold giveBack
              split
              · exact hfin
              · rename_i x r _
                have ho2 := h.over hp (h.condN hp hn)
                have hf : Frame w.mine (w.back.map (·.1)) (doInterrupt w.st w.cur) (doPut c (doInterrupt w.st w.cur) x) := Frame.put _ ho2.lt
                exact fun hx => hfin ((hf.gid _ (h.curM (by rw [hp]; decide))).1 hx)
            · cases ho'
          | returning => rw [hp] at ho; exact absurd rfl ho
          | finished => rw [hp] at ho; exact absurd rfl ho
          | cancelled => rw [hp] at ho; exact absurd rfl ho
          | idle => simp only [hp] at ho'; cases ho'
          | crashed => exact absurd hp hnc
  obtain ⟨hi, hg⟩ := key ops _ (fresh_inv c p cap t0) (by intro hx; cases hx) hl hc
  generalize run c p (fresh c cap t0) ops = w at hi hg hc ⊢
  show (w.st.lost.filter fun q => decide (q.1 ∈ w.mine)).map (·.2) = []
  rw [List.map_eq_nil_iff, List.filter_eq_nil_iff]
  intro q hq hm
  have hqm : q.1 ∈ w.mine := by simpa using hm
  have hql : q.1 ∈ w.st.lost.map (·.1) := List.mem_map.2 ⟨q, hq, rfl⟩
  by_cases hqc : q.1 = w.cur
  · cases hp : w.phase with
    | idle => rw [(hi.idle hp).1] at hqm; cases hqm
    | waiting => exact (hi.curW hp).2.2 (hqc ▸ hql)
    | crashed => exact hc hp
    | returning | finished | cancelled =>
      refine hg (by rw [hp]; rfl) ?_
      rw [← hqc]; simp only [getIds, List.mem_append]; exact .inr (.inr (.inr hql))
  · have hd := hi.older q.1 hqm hqc
    have hnd := nodup_get hi.ids
    simp only [getIds] at hnd
    have h1 := (List.nodup_append.1 hnd).2.1
    have h2 := (List.nodup_append.1 h1).2.1
    exact (List.nodup_append.1 h2).2.2 _ hd _ hql rfl

/-! ## Cases -/

/-- Two items within five time units, the second at 3. -/
def demoOps : List (Op Nat Unit) :=
  [.start, .put 7, .process, .process, .resume, .advance 3, .put 8, .process, .process, .resume]

def demoPar : Par Unit := ⟨(), 5, false⟩

/-- The window ends at 5. -/
def demoEnd : List (Op Nat Unit) := demoOps ++ [.advance 5, .timer, .resume]

example : let w := run fifoCfg demoPar (fresh fifoCfg none 0) demoEnd
    w.phase = .finished ∧ w.returned = some [7, 8] ∧ w.endAt = some 5 ∧ w.taken = [(0, 7), (3, 8)] := by decide +kernel

example : NeverLate fifoCfg demoPar (fresh fifoCfg none 0) demoEnd = true := by decide +kernel

/-- With restarts it ends at 8. -/
example : let w := run fifoCfg ⟨(), 5, true⟩ (fresh fifoCfg none 0) (demoOps ++ [.advance 8, .timer, .resume])
    w.phase = .finished ∧ w.returned = some [7, 8] ∧ w.endAt = some 8 := by decide +kernel

/-- Interrupted at 4: both items go back, in order, behind another one. -/
def demoCancel : List (Op Nat Unit) := demoOps ++ [.advance 4, .cancel, .put 9, .process, .process, .process]

example : let w := run fifoCfg demoPar (fresh fifoCfg none 0) demoCancel
    w.phase = .cancelled ∧ w.st.items = [7, 9, 8] ∧ w.back.map (·.2) = [7, 8] := by decide +kernel

example : NeverLate fifoCfg demoPar (fresh fifoCfg none 0) demoCancel = true := by decide +kernel

/-- **C41 is violated: an item is lost at the end of the window.** An item put in the store at the instant the window ends, and
assigned to the routine's request before the timeout is processed, is neither returned nor left in the store. -/
theorem c41_lost_at_the_end :
    let w := run fifoCfg demoPar (fresh fifoCfg none 0) (demoOps ++ [.advance 5, .put 9, .timer, .process, .resume, .process])
    w.phase = .finished ∧ w.returned = some [7, 8] ∧ w.st.items = [] ∧ w.st.lost.map (·.2) = [9] := by
  decide +kernel

/-- **C41 is violated: interrupting the routine at the instant an item arrives ends the simulation.** The item was handed to the
routine, its condition is triggered, and failing it raises: nothing is put back. -/
theorem c41_interrupt_crashes :
    let w := run fifoCfg demoPar (fresh fifoCfg none 0) [.start, .put 7, .process, .process, .cancel]
    w.phase = .crashed ∧ w.st.items = [] ∧ w.st.delivered.map (·.2) = [7] := by decide +kernel

/-- **C41 is violated: interrupting the routine while it puts items back ends the simulation.** -/
theorem c41_second_interrupt_crashes :
    let w := run fifoCfg demoPar (fresh fifoCfg none 0) (demoOps ++ [.cancel, .cancel])
    w.phase = .crashed ∧ w.st.items = [7] ∧ w.result = [8] := by decide +kernel

end Verif.Windowed
