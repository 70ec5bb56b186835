import Verif.Windowed.Inv

/-! # Every operation keeps the invariant, unless it crashes the simulation -/

namespace Verif.Windowed

open Verif.Store (Cfg St Ev doGet doPut doInterrupt doProcess doAdvance Ids getIds putIds inflight trigPut trigGet enqPut enqGet)

variable {ι γ ν : Type} [DecidableEq ν]

theorem nodup_get {s : St ι γ ν} (h : Ids s) : (getIds s).Nodup := (List.nodup_append.1 h.nd).1

theorem inflight_not_delivered {s : St ι γ ν} (h : Ids s) {i : Nat} {x : ι} {q : List (Ev ι)} (hq : s.evq = .got i x :: q) :
    i ∉ s.delivered.map (·.1) := by
  intro hd
  have := nodup_get h
  simp only [getIds, hq, inflight, List.map_cons, List.cons_append] at this
  have h2 := (List.nodup_append.1 this).2.1
  exact (List.nodup_cons.1 h2).1 (by simp only [List.mem_append]; exact .inr (.inl hd))

theorem Inv.over {p : Par γ} {w : W ι γ ν} (h : Inv p w) (hp : w.phase = .waiting) (hd : w.cur ∉ w.st.delivered.map (·.1)) :
    Inv p { w with st := doInterrupt w.st w.cur, phase := .returning } := by
  have hb : w.back = [] := h.noback (.inr (.inl hp))
  exact { h with
    ids := h.ids.interrupt _
    idle := by intro h; cases h
    curM := fun _ => h.curM (by rw [hp]; decide)
    curW := by intro h; cases h
    dead := fun _ => ⟨by simp [doInterrupt], hd⟩
    gotN := by
      rintro (hx | hx)
      · exact h.gotN (.inl hd)
      · cases hx
    gotS := by intro h; cases h
    condN := by intro h; cases h
    condS := by intro h; cases h
    condF := by intro h; cases h
    dl0 := by intro h; cases h
    dl1 := by intro h; cases h
    pos := by intro h; cases h
    fin := by intro h; cases h
    unfin := fun _ => h.unfin (by rw [hp]; decide)
    noback := by rintro (h | h | h) <;> cases h
    puts := by show mineOf (w.back.map (·.1)) _ = w.back; rw [hb]; simp [mineOf]
    backA := by
      intro i hi
      have hi' : i ∈ w.back.map (·.1) := hi
      rw [hb] at hi'; cases hi'
    canc := by intro h; cases h }

theorem Inv.cancel {c : Cfg ι γ ν} {p : Par γ} {w : W ι γ ν} (h : Inv p w) (hc : (cancel c w).phase ≠ .crashed) : Inv p (cancel c w) := by
  unfold Verif.Windowed.cancel at hc ⊢
  cases hp : w.phase with
  | waiting =>
    simp only [hp] at hc ⊢
    split at hc
    · rename_i hn
      rw [if_pos hn]
      refine Inv.giveBack (h.over hp (h.condN hp hn)) ?_
      intro i hi
      have hi' : i ∈ w.back.map (·.1) := hi
      rw [h.noback (.inr (.inl hp))] at hi'; cases hi'
    · exact absurd rfl hc
  | returning => simp only [hp] at hc; exact absurd rfl hc
  | idle => exact h
  | finished => exact h
  | cancelled => exact h
  | crashed => exact h

theorem Inv.resume {c : Cfg ι γ ν} {p : Par γ} {w : W ι γ ν} (h : Inv p w) (hp : w.phase = .waiting) (hcond : w.cond = some 0)
    (hc : (resume c p w).phase ≠ .crashed) : Inv p (resume c p w) := by
  have hb : w.back = [] := h.noback (.inr (.inl hp))
  unfold Verif.Windowed.resume at hc ⊢
  cases hv : valueOf w.st w.cur with
  | none =>
    have hd := valueOf_none.1 hv
    have hf : w.fired = true := h.condS hp (by rw [hcond]; simp) hd
    have ht : w.taken ≠ [] := by
      intro ht
      rw [(h.dl0 hp ht).2] at hf; cases hf
    obtain ⟨a, h1, h2, h3, h4⟩ := h.dl1 hp ht
    have ho := h.over hp hd
    exact { ho with
      idle := by intro h; cases h
      curM := fun _ => h.curM (by rw [hp]; decide)
      curW := by intro h; cases h
      dead := fun _ => ho.dead rfl
      gotN := by
        rintro (hx | hx)
        · exact h.gotN (.inl hd)
        · cases hx
      gotS := by intro h; cases h
      condN := by intro h; cases h
      condS := by intro h; cases h
      condF := by intro h; cases h
      dl0 := by intro h; cases h
      dl1 := by intro h; cases h
      pos := by intro h; cases h
      fin := fun _ => ⟨rfl, a, h1, by show some w.st.now = _; rw [h4 hf]⟩
      unfin := by intro hx; exact absurd rfl hx
      noback := fun _ => hb
      backA := by
        intro i hi
        have hi' : i ∈ w.back.map (·.1) := hi
        rw [hb] at hi'; cases hi'
      canc := by intro h; cases h }
  | some x =>
    simp only [hv] at hc
    have hd := valueOf_some hv
    have hm := h.curM (by rw [hp]; decide)
    have hres : (w.taken ++ [(w.st.now, x)]).map (·.2) = w.result ++ [x] := by
      have := h.res
      rw [hb] at this
      simp at this
      simp [this]
    have hold : ∀ i ∈ w.mine, i ∈ w.st.delivered.map (·.1) := by
      intro i hi
      by_cases he : i = w.cur
      · exact List.mem_map.2 ⟨_, hd, he.symm⟩
      · exact h.older i hi he
    have hgot : (mineOf w.mine w.st.delivered).map (·.2) = (w.taken ++ [(w.st.now, x)]).map (·.2) := by
      rw [h.gotS hp x hd]; simp
    have hpast : ∀ q ∈ w.taken ++ [(w.st.now, x)], q.1 ≤ w.st.now := by
      intro q hq
      rcases List.mem_append.1 hq with hq | hq
      · exact h.past q hq
      · simp at hq; rw [hq]
    have hchain : (w.taken ++ [(w.st.now, x)]).IsChain fun a b => a.1 ≤ b.1 ∧ (p.reset = true → b.1 ≤ a.1 + p.timeout) := by
      rw [List.isChain_append]
      refine ⟨h.chain, by simp, ?_⟩
      intro a ha b hb'
      simp at hb'; subst hb'
      refine ⟨h.past a (List.mem_of_mem_getLast? ha), fun hr => ?_⟩
      have hne : w.taken ≠ [] := by rintro he; rw [he] at ha; simp at ha
      obtain ⟨a', h1, h2, h3, h4⟩ := h.dl1 hp hne
      rw [anchor, if_pos hr] at h1
      rw [h1] at ha
      simp at ha; subst ha
      exact h3
    have hwithin : 0 ≤ p.timeout → p.reset = false → ∀ a ∈ (w.taken ++ [(w.st.now, x)]).head?, ∀ q ∈ w.taken ++ [(w.st.now, x)],
        q.1 ≤ a.1 + p.timeout := by
      intro h0 hr a ha q hq
      cases ht : w.taken with
      | nil =>
        rw [ht] at ha hq
        simp at ha hq; subst ha; subst hq
        simp only; linarith
      | cons a0 l =>
        rw [ht] at ha hq
        simp only [List.cons_append, List.head?_cons, Option.mem_def, Option.some.injEq] at ha
        subst ha
        rcases List.mem_append.1 (by simpa using hq : q ∈ (a0 :: l) ++ [(w.st.now, x)]) with hq | hq
        · exact h.within hr a0 (by rw [ht]; rfl) q (by rw [ht]; exact hq)
        · obtain ⟨a', h1, h2, h3, h4⟩ := h.dl1 hp (by rw [ht]; simp)
          rw [anchor, hr, ht] at h1
          simp at h1; subst h1
          simp at hq; subst hq
          exact h3
    have hne : w.taken ++ [(w.st.now, x)] ≠ [] := by simp
    have hret := h.unfin (by rw [hp]; decide)
    have hlt : ∀ i ∈ w.mine, i < w.st.nextId := fun i hi => h.lt i (List.mem_append_left _ hi)
    unfold round at hc ⊢
    simp only [Bool.true_and] at hc ⊢
    split at hc
    · rename_i hcnd
      rw [if_pos hcnd]
      split at hc
      · exact absurd rfl hc
      · rename_i hneg
        rw [if_neg hneg]
        have h0 : 0 ≤ p.timeout := not_lt.1 hneg
        refine Inv.request h.ids hlt hb hold hgot hres ⟨fun _ => hne, fun _ => rfl⟩ (fun ht => absurd ht hne)
          (fun _ => ⟨(w.st.now, x), ?_, rfl, ?_, fun hx => by cases hx⟩) hpast hchain (hwithin h0) (fun _ => h0) hret
        · unfold anchor
          by_cases hr : p.reset = true
          · rw [if_pos hr]; simp
          · rw [if_neg hr]
            simp [hr] at hcnd
            by_cases ht : w.taken = []
            · show (w.taken ++ [(w.st.now, x)]).head? = _
              rw [ht]; rfl
            · obtain ⟨a, -, h2, -⟩ := h.dl1 hp ht
              rw [h2] at hcnd; cases hcnd
        · show w.st.now ≤ w.st.now + p.timeout
          linarith
    · rename_i hcnd
      rw [if_neg hcnd]
      have hr : p.reset = false := by
        cases hr : p.reset
        · rfl
        · exact absurd (by simp [hr]) hcnd
      have hdl : w.deadline ≠ none := by
        intro hd; exact hcnd (by rw [hd]; simp)
      have ht : w.taken ≠ [] := fun ht => hdl (h.dl0 hp ht).1
      have h0 := h.pos hp ht
      obtain ⟨a, h1, h2, h3, h4⟩ := h.dl1 hp ht
      refine Inv.request h.ids hlt hb hold hgot hres ⟨fun _ => hne, fun _ => rfl⟩ (fun ht => absurd ht hne)
        (fun _ => ⟨a, ?_, h2, h3, h4⟩) hpast hchain (hwithin h0) (fun _ => h0) hret
      rw [anchor, hr] at h1 ⊢
      simp only [Bool.false_eq_true, ↓reduceIte] at h1 ⊢
      rw [List.head?_append, h1]; rfl

theorem Inv.timer {p : Par γ} {w : W ι γ ν} (h : Inv p w) : Inv p (timer w) := by
  unfold Verif.Windowed.timer
  split
  · rename_i hc
    obtain ⟨hp, hd, hf⟩ := hc
    have hcn : (if w.cond = none then some w.st.evq.length else w.cond) ≠ none := by split <;> simp_all
    exact { h with
      idle := by intro hi; rw [hp] at hi; cases hi
      condN := fun _ hx => absurd hx hcn
      condS := fun _ _ _ => rfl
      condF := fun _ _ => hcn
      dl0 := by
        intro _ ht
        rw [(h.dl0 hp ht).1] at hd; cases hd
      dl1 := by
        intro _ ht
        obtain ⟨a, h1, h2, h3, h4⟩ := h.dl1 hp ht
        refine ⟨a, h1, h2, h3, fun _ => ?_⟩
        rw [h2] at hd
        exact (Option.some.inj hd).symm }
  · exact h

theorem Inv.advance {p : Par γ} {w : W ι γ ν} (h : Inv p w) (t : Rat) : Inv p (advance w t) := by
  unfold Verif.Windowed.advance
  split
  · rename_i hc
    refine h.frame w.cond (by have := h.ids; unfold doAdvance; split; exacts [⟨this.nd, this.lt, this.ev⟩, this]) (Frame.advance _ _ _ t) Iff.rfl ?_ ?_
    · unfold doAdvance; split
      · rename_i h2; exact h2.1
      · exact le_refl _
    · intro hp
      have hf : w.fired = false := by
        by_contra hf
        exact h.condF hp (by simpa using hf) hc.1
      unfold doAdvance; split
      · exact .inr ⟨hf, hc.2 hp hf⟩
      · exact .inl rfl
  · exact h

/-- Whoever was given back is in the store for good. -/
theorem Inv.process {c : Cfg ι γ ν} {p : Par γ} {w : W ι γ ν} (h : Inv p w) (hnc : w.phase ≠ .crashed) : Inv p (process c w) := by
  unfold Verif.Windowed.process
  split
  · exact h
  · rename_i hcond
    cases hq : w.st.evq with
    | nil => exact h
    | cons e q =>
      simp only
      have hmap : (w.cond.map (· - 1) = none ↔ w.cond = none) := by simp
      cases e with
      | put i =>
        have hf : Frame w.mine (w.back.map (·.1)) w.st (doProcess c w.st) := Frame.process hq (by intro j x hx; cases hx)
        have h1 := h.frame (w.cond.map (· - 1)) h.ids.process hf hmap (le_of_eq (process_now c w.st).symm) (fun _ => .inl (process_now c w.st))
        simp only
        split
        · rename_i hr
          refine Inv.giveBack ?_ ?_
          · have he : { w with st := doProcess c w.st, cond := w.cond.map (· - 1) } =
                { w with st := doProcess c w.st, cond := w.cond.map (· - 1), phase := .returning } := by
              cases w; simp only at hr; rw [hr.1]
            rw [← he]; exact h1
          · intro j hj
            by_cases hjp : j = w.putId
            · rw [hjp, ← hr.2]
              exact hf.acc i (h.ids.ev i (by rw [hq]; exact List.mem_cons_self ..))
            · exact hf.acc j (h.backA j hj (.inl hjp))
        · exact h1
      | got i x =>
        have hnd := inflight_not_delivered h.ids hq
        by_cases hown : w.phase = .waiting ∧ i = w.cur
        · obtain ⟨hp, hi⟩ := hown
          subst hi
          obtain ⟨hw, hg, hl⟩ := h.curW hp
          have hm := h.curM (by rw [hp]; decide)
          obtain ⟨e1, e2, e3, e4, e5, e6, e7, e8⟩ := process_own (c := c) hq hw w.mine (w.back.map (·.1))
          have hmine : mineOf w.mine (doProcess c w.st).delivered = mineOf w.mine w.st.delivered ++ [(w.cur, x)] := by
            rw [e1, mineOf_append, mineOf_yes x hm]
          have hgN := h.gotN (.inl hnd)
          have key : ∀ cond', cond' ≠ none → Inv p { w with st := doProcess c w.st, cond := cond' } := by
            intro cond' hc'
            exact { h with
              ids := h.ids.process
              lt := fun j hj => by show j < (doProcess c w.st).nextId; rw [e7]; exact h.lt j hj
              older := fun j hj hne => by
                show j ∈ (doProcess c w.st).delivered.map (·.1)
                rw [e1, List.map_append]; exact List.mem_append_left _ (h.older j hj hne)
              curW := fun _ => ⟨by show _ ∈ (doProcess c w.st).waiting; rw [e3]; exact hw, (e4 _).2 hg, by
                show _ ∉ (doProcess c w.st).lost.map (·.1); rw [e2]; exact hl⟩
              dead := by intro hx; simp only [hp] at hx; cases hx
              gotN := by
                rintro (hx | hx)
                · refine absurd ?_ hx
                  show _ ∈ (doProcess c w.st).delivered.map (·.1)
                  rw [e1]; simp
                · simp only [hp] at hx; cases hx
              gotS := by
                intro _ y hy
                have hy' : (w.cur, y) ∈ (doProcess c w.st).delivered := hy
                show (mineOf w.mine (doProcess c w.st).delivered).map (·.2) = _
                rw [e1] at hy'
                have hxy : y = x := by
                  rcases List.mem_append.1 hy' with hy' | hy'
                  · exact absurd (List.mem_map.2 ⟨_, hy', rfl⟩) hnd
                  · simpa using hy'
                rw [hmine, List.map_append, hgN, hxy]; rfl
              condN := fun _ hx => absurd hx hc'
              condS := by
                intro _ _ hx
                refine absurd ?_ hx
                show _ ∈ (doProcess c w.st).delivered.map (·.1)
                rw [e1]; simp
              condF := fun _ _ => hc'
              dl1 := by
                intro _ ht
                show ∃ a, _ ∧ _ ∧ (doProcess c w.st).now ≤ _ ∧ (_ → (doProcess c w.st).now = _)
                rw [e8]; exact h.dl1 hp ht
              past := fun q hq => by show _ ≤ (doProcess c w.st).now; rw [e8]; exact h.past q hq
              puts := by
                show mineOf (w.back.map (·.1)) ((doProcess c w.st).accepted ++ (doProcess c w.st).putQ) = w.back
                rw [e5]; exact h.puts
              backA := fun j hj hx => e6 j (h.backA j hj hx) }
          simp only
          split
          · exact key _ (by simp)
          · rename_i hno
            refine key _ ?_
            rw [Ne, hmap]
            exact fun hc => hno ⟨hp, by simp, hc⟩
        · have hf : Frame w.mine (w.back.map (·.1)) w.st (doProcess c w.st) := by
            refine Frame.process hq ?_
            intro j y hj hjm hjw
            obtain ⟨rfl, -⟩ := Ev.got.inj hj
            have hjc : i = w.cur := by
              by_contra hne
              exact hnd (h.older i hjm hne)
            have hpo : w.phase.over = true := by
              cases hph : w.phase with
              | idle => rw [(h.idle hph).1] at hjm; cases hjm
              | waiting => exact absurd ⟨hph, hjc⟩ hown
              | crashed => exact absurd hph hnc
              | returning => rfl
              | finished => rfl
              | cancelled => rfl
            exact (h.dead hpo).1 (hjc ▸ hjw)
          simp only
          rw [if_neg (fun hx => hown ⟨hx.1, hx.2.1⟩)]
          exact h.frame (w.cond.map (· - 1)) h.ids.process hf hmap (le_of_eq (process_now c w.st).symm) (fun _ => .inl (process_now c w.st))

theorem Inv.step {c : Cfg ι γ ν} {p : Par γ} {w : W ι γ ν} (h : Inv p w) (op : Op ι γ) (hc : (step c p w op).phase ≠ .crashed) :
    Inv p (step c p w op) := by
  unfold Verif.Windowed.step at hc ⊢
  split at hc
  · rename_i h1; exact absurd h1 hc
  · rename_i hnc
    rw [if_neg hnc]
    cases op with
    | start =>
      simp only at hc ⊢
      split
      · rename_i hp; exact h.start hp
      · exact h
    | put x =>
      exact h.frame w.cond ((h.ids.enqPut x).trigPut) (Frame.put x h.lt) Iff.rfl (le_of_eq (put_now c w.st x).symm) (fun _ => .inl (put_now c w.st x))
    | get g =>
      exact h.frame w.cond ((h.ids.enqGet g).trigGet) (Frame.get g h.lt) Iff.rfl (le_of_eq (get_now c w.st g).symm) (fun _ => .inl (get_now c w.st g))
    | interrupt id =>
      simp only
      split
      · exact h
      · rename_i hn
        exact h.frame w.cond (h.ids.interrupt id) (Frame.interrupt (fun hx => hn (.inl hx)) (fun hx => hn (.inr hx))) Iff.rfl (le_refl _) (fun _ => .inl rfl)
    | process => exact h.process hnc
    | timer => exact h.timer
    | resume =>
      simp only at hc ⊢
      split at hc
      · rename_i hp
        rw [if_pos hp]
        exact h.resume hp.1 hp.2 hc
      · rename_i hp
        rw [if_neg hp]; exact h
    | advance t => exact h.advance t
    | cancel => exact h.cancel hc

theorem run_crashed (c : Cfg ι γ ν) (p : Par γ) {w : W ι γ ν} (h : w.phase = .crashed) (ops : List (Op ι γ)) : run c p w ops = w := by
  induction ops with
  | nil => rfl
  | cons op ops ih =>
    have : Verif.Windowed.step c p w op = w := by unfold Verif.Windowed.step; rw [if_pos h]
    simp only [run, List.foldl_cons, this]; exact ih

theorem run_cons (c : Cfg ι γ ν) (p : Par γ) (w : W ι γ ν) (op : Op ι γ) (ops : List (Op ι γ)) :
    run c p w (op :: ops) = run c p (Verif.Windowed.step c p w op) ops := rfl

theorem Inv.run {c : Cfg ι γ ν} {p : Par γ} {w : W ι γ ν} (h : Inv p w) (ops : List (Op ι γ)) (hc : (run c p w ops).phase ≠ .crashed) :
    Inv p (run c p w ops) := by
  induction ops generalizing w with
  | nil => exact h
  | cons op ops ih =>
    rw [run_cons] at hc ⊢
    refine ih (h.step op ?_) hc
    intro hx
    rw [run_crashed c p hx] at hc
    exact hc hx

end Verif.Windowed
