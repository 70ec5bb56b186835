import Verif.Queued.Frame

/-! # One mover and one sensor during a trip -/

namespace Verif.Queued

open Verif.Sphere (Tag)

variable {α L : Type} [Field α] [LinearOrder α] [IsStrictOrderedRing α]

/-- The pairs still to come at time `tc`. -/
structure Kept (was : Bool) (tc : α) (kept : List (Entry α × Entry α)) : Prop where
  ordered : kept.Pairwise fun p q => p.2.time < q.1.time
  le : ∀ p ∈ kept, p.1.time ≤ p.2.time
  ge : ∀ p ∈ kept, tc ≤ p.2.time
  first : ∀ p ∈ kept, (p.1.kind = .startInside ∧ p.1.time ≤ tc) ∨ p.1.kind = .enter
  strict : ∀ p ∈ kept, p.2.kind = .exit → tc < p.2.time ∧ p.1.time < p.2.time
  last : ∀ (j : Nat) q, kept[j]? = some q → q.2.kind ≠ .exit → j + 1 = kept.length
  was : was = true → ∃ q, kept[0]? = some q ∧ q.1.time ≤ tc

theorem Kept.lt {was : Bool} {tc : α} {kept} (h : Kept was tc kept) {i j : Nat} (hij : i < j) {p q} (hp : kept[i]? = some p) (hq : kept[j]? = some q) :
    p.2.time < q.1.time := by
  obtain ⟨hi, rfl⟩ := List.getElem?_eq_some_iff.1 hp
  obtain ⟨hj, rfl⟩ := List.getElem?_eq_some_iff.1 hq
  exact List.pairwise_iff_getElem.1 h.ordered i j hi hj hij

/-- The notification of the entry of pair `j`: none if the mover was already in view. -/
def ent (was : Bool) (tc : α) (kept : List (Entry α × Entry α)) (j : Nat) : List (α × Bool) :=
  if was = true ∧ j = 0 then [] else match kept[j]? with
    | some q => [(max q.1.time tc, true)]
    | none => []

/-- The notification of its exit. -/
def ext (kept : List (Entry α × Entry α)) (j : Nat) : List (α × Bool) :=
  match kept[j]? with
  | some q => if q.2.kind = .exit then [(q.2.time, false)] else []
  | none => []

/-- The notifications after `d` pairs and the entry of the next if `cur`. -/
def news (was : Bool) (tc : α) (kept : List (Entry α × Entry α)) (d : Nat) (cur : Bool) : List (α × Bool) :=
  (List.range d).flatMap (fun j => ent was tc kept j ++ ext kept j) ++ if cur then ent was tc kept d else []

theorem news_zero (was : Bool) (tc : α) (kept) : news was tc kept 0 false = [] := rfl

theorem news_cur (was : Bool) (tc : α) (kept) (d : Nat) : news was tc kept d true = news was tc kept d false ++ ent was tc kept d := by
  simp [news]

theorem news_succ (was : Bool) (tc : α) (kept) (d : Nat) : news was tc kept (d + 1) false = news was tc kept d true ++ ext kept d := by
  simp [news, List.range_succ]

/-- What the last notification says. -/
def lastOf (was : Bool) : List (α × Bool) → Bool
  | [] => was
  | (_, e) :: l => lastOf e l

omit [Field α] [LinearOrder α] [IsStrictOrderedRing α] in
theorem lastOf_append (was : Bool) (l l' : List (α × Bool)) : lastOf was (l ++ l') = lastOf (lastOf was l) l' := by
  induction l generalizing was with
  | nil => rfl
  | cons x l ih => exact ih x.2

omit [Field α] [LinearOrder α] [IsStrictOrderedRing α] in
theorem alternate_append (was : Bool) (l l' : List (α × Bool)) : Alternate was (l ++ l') ↔ Alternate was l ∧ Alternate (lastOf was l) l' := by
  induction l generalizing was with
  | nil => simp [Alternate, lastOf]
  | cons x l ih =>
    obtain ⟨t, e⟩ := x
    simp only [List.cons_append, Alternate, lastOf, ih, and_assoc]

/-- The process of a pair that has not been entered. -/
def Waiting (tc now : α) (q : Entry α × Entry α) (p : Proc α) : Prop :=
  (p.stage = .fresh ∧ now = tc) ∨ (p.stage = .entry q.1.time ∧ now ≤ q.1.time ∧ tc < q.1.time)

/-- The processes of `m` and `s` are those of the pairs from `d` on (in the order of creation from `b0`), the first of which has been
entered if `cur`; everything before has been notified. -/
structure Trk (m s : Nat) (tc : α) (b0 : Nat) (kept : List (Entry α × Entry α)) (was : Bool) (l0 : List (α × Bool)) (d : Nat) (cur : Bool)
    (σ : St α L) : Prop where
  wf : Wf σ
  det : σ.detect m = some true
  moving : σ.movers.has m = true
  time : tc ≤ σ.now
  dle : d ≤ kept.length
  isExit : cur = true → ∃ q, kept[d]? = some q ∧ q.2.kind = .exit
  live : ∀ (i : Nat) p, σ.procs[i]? = some p → p.mover = m → p.sensor = s → p.stage ≠ .over → ∃ j q, i = b0 + j ∧ d ≤ j ∧ kept[j]? = some q ∧
    p.first = q.1 ∧ p.second = q.2 ∧ p.intr = false ∧
    ((j = d ∧ cur = true ∧ p.stage = .exit q.2.time ∧ σ.now ≤ q.2.time) ∨ (¬ (j = d ∧ cur = true) ∧ Waiting tc σ.now q p))
  there : ∀ j, d ≤ j → j < kept.length → ∃ p, σ.procs[b0 + j]? = some p ∧ p.mover = m ∧ p.sensor = s ∧ p.stage ≠ .over ∧ (s, b0 + j) ∈ σ.events m
  told : told σ m s = l0 ++ news was tc kept d cur
  past : ∀ j q, kept[j]? = some q → (j < d ∨ j = d ∧ cur = true → max q.1.time tc ≤ σ.now) ∧ (j < d → q.2.kind = .exit → q.2.time ≤ σ.now)
  alt : Alternate was (news was tc kept d cur)
  last : lastOf was (news was tc kept d cur) = decide (s ∈ σ.inView m)
  view : s ∈ σ.inView m ↔ cur = true ∨ (d = 0 ∧ was = true) ∨ ∃ j q, j + 1 = d ∧ kept[j]? = some q ∧ q.2.kind ≠ .exit

variable {m s : Nat} {tc : α} {b0 : Nat} {kept : List (Entry α × Entry α)} {was : Bool} {l0 : List (α × Bool)} {d : Nat} {cur : Bool} {σ τ : St α L}

theorem Trk.frame (h : Trk m s tc b0 kept was l0 d cur σ) (f : Frame m s σ τ) (w : Wf τ) : Trk m s tc b0 kept was l0 d cur τ := by
  refine ⟨w, f.detect.trans h.det, ?_, by rw [f.now]; exact h.time, h.dle, h.isExit, fun i p h1 h2 h3 h4 => ?_, fun j h1 h2 => ?_, f.told.trans h.told,
    by rw [f.now]; exact h.past, h.alt, ?_, f.view.trans h.view⟩
  · unfold Dict.has; rw [f.movers]; exact h.moving
  · rw [f.now]; exact h.live i p ((f.procs i p h2 h3).1 h1) h2 h3 h4
  · obtain ⟨p, hp, h3, h4, h5, h6⟩ := h.there j h1 h2
    exact ⟨p, (f.procs _ p h3 h4).2 hp, h3, h4, h5, f.events _ h6⟩
  · rw [h.last]; exact decide_eq_decide.2 f.view.symm

theorem Trk.advance (h : Trk m s tc b0 kept was l0 d cur σ) (t : α) (ht : σ.now ≤ t) (hi : ∀ p ∈ σ.procs, Idle t p) :
    Trk m s tc b0 kept was l0 d cur { σ with now := t } := by
  refine ⟨⟨h.wf.events, h.wf.sensors, h.wf.movers, h.wf.view⟩, h.det, h.moving, by have := h.time; simp; linarith, h.dle, h.isExit,
    fun i p h1 h2 h3 h4 => ?_, h.there, h.told,
    fun j q hq => ⟨fun h1 => ((h.past j q hq).1 h1).trans ht, fun h1 h2 => ((h.past j q hq).2 h1 h2).trans ht⟩, h.alt, h.last, h.view⟩
  obtain ⟨j, q, g1, g2, g3, g4, g5, g6, g7⟩ := h.live i p h1 h2 h3 h4
  refine ⟨j, q, g1, g2, g3, g4, g5, g6, ?_⟩
  have hp := hi p (List.mem_of_getElem? h1)
  rcases g7 with ⟨k1, k2, k3, k4⟩ | ⟨k1, ⟨k2, k3⟩ | ⟨k2, k3, k4⟩⟩
  · simp only [Idle, k3] at hp
    exact .inl ⟨k1, k2, k3, hp.2⟩
  · simp only [Idle, k2] at hp
  · simp only [Idle, k2] at hp
    exact .inr ⟨k1, .inr ⟨k2, hp.2, k4⟩⟩

/-- The pair of a process about to enter is the next one. -/
theorem Trk.next (hk : Kept was tc kept) (h : Trk m s tc b0 kept was l0 d cur σ) {j : Nat} {q} (hq : kept[j]? = some q) (hd : d ≤ j)
    (hc : ¬ (j = d ∧ cur = true)) (hn : q.1.time ≤ σ.now) : j = d ∧ cur = false := by
  rcases lt_or_eq_of_le hd with hlt | rfl
  · exfalso
    have hlen : j < kept.length := (List.getElem?_eq_some_iff.1 hq).1
    obtain ⟨p, hp, h1, h2, h3, _⟩ := h.there d (le_refl _) (by omega)
    obtain ⟨j', q', g1, g2, g3, _, _, _, g7⟩ := h.live _ p hp h1 h2 h3
    have : j' = d := by omega
    subst this
    have hlt' := hk.lt hlt g3 hq
    have hm := List.mem_of_getElem? g3
    rcases g7 with ⟨_, _, _, k4⟩ | ⟨_, ⟨_, k3⟩ | ⟨_, k3, _⟩⟩
    · linarith
    · linarith [hk.ge q' hm]
    · linarith [hk.le q' hm]
  · refine ⟨rfl, ?_⟩
    cases cur
    · rfl
    · exact absurd ⟨rfl, rfl⟩ hc

/-- Replacing the process of pair `j`. -/
theorem setProc_get (σ : St α L) (i : Nat) (p p' : Proc α) (hp : σ.procs[i]? = some p) (k : Nat) :
    (setProc σ i p').procs[k]? = if k = i then some p' else σ.procs[k]? := by
  show (σ.procs.set i p')[k]? = _
  rw [List.getElem?_set]
  by_cases hk : i = k
  · subst hk; rw [if_pos rfl, if_pos (List.getElem?_eq_some_iff.1 hp).1, if_pos rfl]
  · rw [if_neg hk, if_neg (Ne.symm hk)]

/-- The mover enters: the process of pair `d` has told the sensor (unless the mover was in view) and goes on. -/
theorem Trk.enter (hk : Kept was tc kept) (h : Trk m s tc b0 kept was l0 d false σ) {q} (hq : kept[d]? = some q) {p : Proc α} (hp : σ.procs[b0 + d]? = some p)
    (hm : p.mover = m) (hs : p.sensor = s) (h1 : p.first = q.1) (h2 : p.second = q.2) (h3 : p.intr = false) (hnow : σ.now = max q.1.time tc)
    (ρ : St α L) (hw : Wf ρ) (e1 : ρ.now = σ.now) (e2 : ρ.detect = σ.detect) (e3 : ρ.movers = σ.movers) (e4 : ρ.procs = σ.procs) (e5 : ρ.events = σ.events)
    (e6 : Queued.told ρ m s = Queued.told σ m s ++ if s ∈ σ.inView m then [] else [(σ.now, true)]) (e7 : s ∈ ρ.inView m)
    (hwas : s ∈ σ.inView m ↔ d = 0 ∧ was = true) :
    (afterEntry ρ (b0 + d) p).2 = .ok ∧ ∃ d' cur', Trk m s tc b0 kept was l0 d' cur' (afterEntry ρ (b0 + d) p).1 := by
  have hmem := List.mem_of_getElem? hq
  have hent : ent was tc kept d = if s ∈ σ.inView m then [] else [(σ.now, true)] := by
    unfold ent
    by_cases hc : s ∈ σ.inView m
    · rw [if_pos hc, if_pos (by have := hwas.1 hc; exact ⟨this.2, this.1⟩)]
    · rw [if_neg hc, if_neg (fun hc' => hc (hwas.2 ⟨hc'.2, hc'.1⟩)), hq, hnow]
  have hnews : Queued.told ρ m s = l0 ++ news was tc kept d true := by rw [e6, h.told, news_cur, hent, List.append_assoc]
  have hlastc : lastOf was (news was tc kept d true) = true := by
    rw [news_cur, lastOf_append, h.last, hent]
    by_cases hc : s ∈ σ.inView m <;> simp [hc, lastOf]
  have haltc : Alternate was (news was tc kept d true) := by
    rw [news_cur, alternate_append]
    refine ⟨h.alt, ?_⟩
    rw [h.last, hent]
    by_cases hc : s ∈ σ.inView m <;> simp [hc, Alternate]
  have hpρ : ρ.procs[b0 + d]? = some p := by rw [e4]; exact hp
  have hlen : d < kept.length := (List.getElem?_eq_some_iff.1 hq).1
  have hlive : ∀ (i : Nat) p', ρ.procs[i]? = some p' → i ≠ b0 + d → p'.mover = m → p'.sensor = s → p'.stage ≠ .over → ∃ j q, i = b0 + j ∧ d + 1 ≤ j ∧
      kept[j]? = some q ∧ p'.first = q.1 ∧ p'.second = q.2 ∧ p'.intr = false ∧ Waiting tc σ.now q p' := by
    intro i p' g1 g2 g3 g4 g5
    rw [e4] at g1
    obtain ⟨j, q', k1, k2, k3, k4, k5, k6, k7⟩ := h.live i p' g1 g3 g4 g5
    refine ⟨j, q', k1, by omega, k3, k4, k5, k6, ?_⟩
    rcases k7 with ⟨_, hc, _⟩ | ⟨_, k7⟩
    · exact absurd hc (by simp)
    · exact k7
  have hthere : ∀ (p' : Proc α) j, d + 1 ≤ j → j < kept.length → ∃ p, (setProc ρ (b0 + d) p').procs[b0 + j]? = some p ∧ p.mover = m ∧ p.sensor = s ∧
      p.stage ≠ .over ∧ (s, b0 + j) ∈ (setProc ρ (b0 + d) p').events m := by
    intro p' j g1 g2
    obtain ⟨r, k1, k2, k3, k4, k5⟩ := h.there j (by omega) g2
    refine ⟨r, ?_, k2, k3, k4, by rw [← e5] at k5; exact k5⟩
    rw [setProc_get ρ _ p p' hpρ, if_neg (by omega), e4]; exact k1
  have hpast : ∀ j q', kept[j]? = some q' → (j ≤ d → max q'.1.time tc ≤ σ.now) ∧ (j < d → q'.2.kind = .exit → q'.2.time ≤ σ.now) := by
    intro j q' g1
    refine ⟨fun hle => ?_, (h.past j q' g1).2⟩
    rcases lt_or_eq_of_le hle with hlt | rfl
    · exact (h.past j q' g1).1 (.inl hlt)
    · rw [hq] at g1; cases g1; exact hnow.ge
  unfold afterEntry
  rw [h2]
  by_cases hx : q.2.kind = .exit
  · have hb := hk.strict q hmem hx
    have hlt : ρ.now < q.2.time := by rw [e1, hnow]; exact max_lt hb.2 hb.1
    rw [if_neg (by simp [hx]), if_neg (not_le.2 hlt)]
    refine ⟨rfl, d, true, ⟨setProc_wf ρ _ p _ hpρ rfl rfl hw, by rw [← h.det, ← e2]; rfl, by rw [← h.moving, ← e3]; rfl,
      (show tc ≤ ρ.now by rw [e1]; exact h.time), h.dle, fun _ => ⟨q, hq, hx⟩, ?_, ?_, hnews, ?_, haltc, ?_, ?_⟩⟩
    · intro i p' g1 g2 g3 g4
      rw [setProc_get ρ _ p _ hpρ] at g1
      split at g1
      · rename_i hi
        cases g1
        exact ⟨d, q, hi, le_refl _, hq, h1, by simp [h2], h3, .inl ⟨rfl, rfl, rfl, hlt.le⟩⟩
      · rename_i hi
        obtain ⟨j, q', k1, k2, k3, k4, k5, k6, k7⟩ := hlive i p' g1 hi g2 g3 g4
        refine ⟨j, q', k1, by omega, k3, k4, k5, k6, .inr ⟨fun hc => by omega, ?_⟩⟩
        show Waiting tc ρ.now q' p'
        rw [e1]; exact k7
    · intro j g1 g2
      rcases Nat.lt_or_eq_of_le g1 with g | rfl
      · exact hthere _ j g g2
      · obtain ⟨r, _, _, _, _, k5⟩ := h.there d (le_refl _) g2
        exact ⟨_, (setProc_get ρ _ p _ hpρ (b0 + d)).trans (if_pos rfl), hm, hs, by simp, by rw [← e5] at k5; exact k5⟩
    · intro j q' g1
      have := hpast j q' g1
      rw [← e1] at this
      exact ⟨fun hj => this.1 (by omega), this.2⟩
    · rw [hlastc]; exact (decide_eq_true e7).symm
    · exact ⟨fun _ => .inl rfl, fun _ => e7⟩
  · rw [if_pos hx]
    have hext : ext kept d = [] := by unfold ext; rw [hq]; simp [hx]
    have hnews' : news was tc kept (d + 1) false = news was tc kept d true := by rw [news_succ, hext, List.append_nil]
    refine ⟨rfl, d + 1, false, ⟨setProc_wf ρ _ p _ hpρ rfl rfl hw, by rw [← h.det, ← e2]; rfl, by rw [← h.moving, ← e3]; rfl,
      (show tc ≤ ρ.now by rw [e1]; exact h.time), by omega, by simp, ?_, fun j g1 g2 => hthere _ j g1 g2, by rw [hnews']; exact hnews, ?_,
      by rw [hnews']; exact haltc, ?_, ?_⟩⟩
    · intro i p' g1 g2 g3 g4
      rw [setProc_get ρ _ p _ hpρ] at g1
      split at g1
      · cases g1; exact absurd rfl g4
      · rename_i hi
        obtain ⟨j, q', k1, k2, k3, k4, k5, k6, k7⟩ := hlive i p' g1 hi g2 g3 g4
        refine ⟨j, q', k1, by omega, k3, k4, k5, k6, .inr ⟨by simp, ?_⟩⟩
        show Waiting tc ρ.now q' p'
        rw [e1]; exact k7
    · intro j q' g1
      have := hpast j q' g1
      rw [← e1] at this
      refine ⟨fun hj => this.1 (by rcases hj with hj | ⟨_, hj⟩ <;> [omega; cases hj]), fun hj hkind => ?_⟩
      rcases Nat.lt_or_eq_of_le (Nat.le_of_lt_succ hj) with hj | rfl
      · exact this.2 hj hkind
      · rw [hq] at g1; cases g1; exact absurd hkind hx
    · rw [hnews', hlastc]; exact (decide_eq_true e7).symm
    · exact ⟨fun _ => .inr (.inr ⟨d, q, rfl, hq, hx⟩), fun _ => e7⟩

/-- The kernel resumes a process. -/
theorem Trk.fire (hk : Kept was tc kept) (h : Trk m s tc b0 kept was l0 d cur σ) (i : Nat) :
    (∃ d' cur', Trk m s tc b0 kept was l0 d' cur' (Queued.fire σ i).1) ∧
    ∀ p, σ.procs[i]? = some p → p.mover = m → p.sensor = s → (Queued.fire σ i).2 ≠ .error := by
  by_cases hi : ∀ p, σ.procs[i]? = some p → p.mover = m → p.sensor = s → p.stage = .over
  · refine ⟨⟨d, cur, h.frame (fire_frame σ m s i hi) (fire_wf σ i h.wf)⟩, fun p h1 h2 h3 => ?_⟩
    simp [Queued.fire, h1, hi p h1 h2 h3]
  · push Not at hi
    obtain ⟨p, hp, hm, hs, hst⟩ := hi
    suffices (∃ d' cur', Trk m s tc b0 kept was l0 d' cur' (Queued.fire σ i).1) ∧ (Queued.fire σ i).2 ≠ .error from ⟨this.1, fun _ _ _ _ => this.2⟩
    obtain ⟨j, q, rfl, g2, g3, g4, g5, g6, g7⟩ := h.live i p hp hm hs hst
    have hmem := List.mem_of_getElem? g3
    rcases g7 with ⟨rfl, hcur, k3, k4⟩ | ⟨k1, ⟨k2, k3⟩ | ⟨k2, k3, k4⟩⟩
    · -- waiting for the exit
      subst hcur
      simp only [Queued.fire, hp, k3, g6]
      by_cases hdue : q.2.time = σ.now
      · have hview : s ∈ σ.inView m := h.view.2 (.inl rfl)
        rw [if_neg (by simp), if_pos hdue, leaves_eq, hm, hs, if_pos hview]
        refine ⟨⟨j + 1, false, ?_⟩, by simp⟩
        have hlen : j < kept.length := (List.getElem?_eq_some_iff.1 g3).1
        have hpt : (tell σ m s false).procs[b0 + j]? = some p := hp
        obtain ⟨q', hq', hx⟩ := h.isExit rfl
        rw [g3] at hq'
        cases hq'
        have hext : ext kept j = [(σ.now, false)] := by unfold ext; rw [g3]; simp [hx, hdue]
        have hnot : s ∉ (left (setProc (tell σ m s false) (b0 + j) { p with mover := m, sensor := s, stage := .over }) m s).inView m := by
          simp [left, upd_self]
        refine ⟨left_wf _ _ _ (setProc_wf _ _ p _ hpt hm.symm hs.symm (tell_wf _ _ _ _ h.wf)), h.det, h.moving, h.time, hlen, by simp, ?_, ?_, ?_, ?_, ?_, ?_, ?_⟩
        · intro i' p' e1 e2 e3 e4
          have e1' : (setProc (tell σ m s false) (b0 + j) { p with mover := m, sensor := s, stage := .over }).procs[i']? = some p' := e1
          rw [setProc_get _ _ p _ hpt] at e1'
          split at e1'
          · cases e1'; exact absurd rfl e4
          · rename_i hne
            obtain ⟨j', q', l1, l2, l3, l4, l5, l6, l7⟩ := h.live i' p' e1' e2 e3 e4
            refine ⟨j', q', l1, by omega, l3, l4, l5, l6, .inr ⟨by simp, ?_⟩⟩
            rcases l7 with ⟨l7, _⟩ | ⟨_, l7⟩
            · omega
            · exact l7
        · intro j' e1 e2
          obtain ⟨r, l1, l2, l3, l4, l5⟩ := h.there j' (by omega) e2
          refine ⟨r, ?_, l2, l3, l4, l5⟩
          show (setProc (tell σ m s false) (b0 + j) { p with mover := m, sensor := s, stage := .over }).procs[b0 + j']? = some r
          rw [setProc_get _ _ p _ hpt, if_neg (by omega)]; exact l1
        · show Queued.told (tell σ m s false) m s = _
          rw [told_tell, if_pos ⟨rfl, rfl⟩, h.told, news_succ, hext, List.append_assoc]
        · intro j' q' e1
          refine ⟨fun hj => ?_, fun hj hkind => ?_⟩
          · refine (h.past j' q' e1).1 ?_
            rcases hj with hj | ⟨_, hj⟩
            · rcases Nat.lt_or_eq_of_le (Nat.le_of_lt_succ hj) with hj | rfl
              · exact .inl hj
              · exact .inr ⟨rfl, rfl⟩
            · cases hj
          · rcases Nat.lt_or_eq_of_le (Nat.le_of_lt_succ hj) with hj | rfl
            · exact (h.past j' q' e1).2 hj hkind
            · rw [g3] at e1; cases e1; exact hdue.le
        · rw [news_succ, hext, alternate_append, h.last]
          exact ⟨h.alt, by simp [hview, Alternate]⟩
        · rw [news_succ, hext, lastOf_append, decide_eq_false hnot]; rfl
        · refine ⟨fun hc => absurd hc hnot, ?_⟩
          rintro (hc | ⟨hc, _⟩ | ⟨j', q', e1, e2, e3⟩)
          · cases hc
          · omega
          · have : j' = j := by omega
            subst this
            rw [g3] at e2; cases e2; exact absurd hx e3
      · rw [if_neg (by simp), if_neg hdue]
        exact ⟨⟨j, true, h⟩, by simp⟩
    · -- not begun
      simp only [Queued.fire, hp, k2]
      unfold begins
      rw [hm, hs, g4]
      by_cases hent : q.1.kind = .startInside ∨ q.1.time ≤ σ.now
      · rw [if_pos hent]
        have hle : q.1.time ≤ σ.now := by
          rcases hent with hc | hc
          · rcases hk.first q hmem with hf | hf
            · rw [k3]; exact hf.2
            · rw [hf] at hc; cases hc
          · exact hc
        obtain ⟨rfl, rfl⟩ := h.next hk g3 g2 k1 hle
        have hwas : s ∈ σ.inView m ↔ j = 0 ∧ was = true := by
          rw [h.view]
          constructor
          · rintro (hc | hc | ⟨j', q', e1, e2, e3⟩)
            · cases hc
            · exact hc
            · have := hk.last j' q' e2 e3
              have := (List.getElem?_eq_some_iff.1 g3).1
              omega
          · exact fun hc => .inr (.inl hc)
        obtain ⟨v1, v2, v3, v4, v5, v6, _⟩ := addToView_same σ m s
        have hvm : s ∈ (addToView σ m s).inView m := (addToView_mem σ m s m s).2 (.inr ⟨rfl, rfl⟩)
        have := h.enter hk g3 hp hm hs g4 g5 g6 (by rw [k3] at hle ⊢; exact (max_eq_right hle).symm)
          (if s ∈ σ.inView m then addToView σ m s else tell (addToView σ m s) m s true)
          (by split <;> [exact addToView_wf _ _ _ h.wf; exact tell_wf _ _ _ _ (addToView_wf _ _ _ h.wf)])
          (by split <;> exact v1) (by split <;> exact v3) (by split <;> exact v4) (by split <;> exact v5) (by split <;> exact v6)
          (by
            split
            · rw [List.append_nil]; unfold Queued.told; rw [v2]
            · rw [told_tell, if_pos ⟨rfl, rfl⟩, v1]; unfold Queued.told; rw [v2])
          (by split <;> exact hvm) hwas
        obtain ⟨o1, o2⟩ := this
        exact ⟨o2, by rw [o1]; simp⟩
      · rw [if_neg hent]
        push Not at hent
        have hkind : q.1.kind = .enter := by
          rcases hk.first q hmem with hf | hf
          · exact absurd hf.1 hent.1
          · exact hf
        rw [if_neg (by simp [hkind])]
        refine ⟨⟨d, cur, ⟨setProc_wf σ _ p _ hp hm.symm hs.symm h.wf, h.det, h.moving, h.time, h.dle, h.isExit, ?_, ?_, h.told, h.past, h.alt, h.last, h.view⟩⟩, by simp⟩
        · intro i' p' e1 e2 e3 e4
          rw [setProc_get _ _ p _ hp] at e1
          split at e1
          · rename_i hi'
            cases e1
            exact ⟨j, q, hi', g2, g3, rfl, g5, g6, .inr ⟨k1, .inr ⟨rfl, hent.2.le, by rw [← k3]; exact hent.2⟩⟩⟩
          · exact h.live i' p' e1 e2 e3 e4
        · intro j' e1 e2
          obtain ⟨r, l1, l2, l3, l4, l5⟩ := h.there j' e1 e2
          by_cases hj : j' = j
          · subst hj
            exact ⟨_, (setProc_get _ _ p _ hp _).trans (if_pos rfl), rfl, rfl, by simp, l5⟩
          · exact ⟨r, by rw [setProc_get _ _ p _ hp, if_neg (by omega)]; exact l1, l2, l3, l4, l5⟩
    · -- waiting for the entry
      simp only [Queued.fire, hp, k2, g6]
      by_cases hdue : q.1.time = σ.now
      · rw [if_neg (by simp), if_pos hdue, hm, hs]
        obtain ⟨rfl, rfl⟩ := h.next hk g3 g2 k1 hdue.le
        have hnot : ¬ s ∈ σ.inView m := by
          rw [h.view]
          rintro (hc | ⟨rfl, hc⟩ | ⟨j', q', e1, e2, e3⟩)
          · cases hc
          · obtain ⟨q', hq', hle⟩ := hk.was hc
            rw [g3] at hq'
            cases hq'
            linarith
          · have := hk.last j' q' e2 e3
            have := (List.getElem?_eq_some_iff.1 g3).1
            omega
        obtain ⟨v1, v2, v3, v4, v5, v6, _⟩ := addToView_same (tell σ m s true) m s
        have := h.enter hk g3 hp hm hs g4 g5 g6 (by rw [hdue] at k4 ⊢; exact (max_eq_left k4.le).symm)
          (addToView (tell σ m s true) m s) (addToView_wf _ _ _ (tell_wf _ _ _ _ h.wf)) v1 v3 v4 v5 v6
          (by
            rw [if_neg hnot]
            have : Queued.told (addToView (tell σ m s true) m s) m s = Queued.told (tell σ m s true) m s := by unfold Queued.told; rw [v2]
            rw [this, told_tell, if_pos ⟨rfl, rfl⟩])
          ((addToView_mem _ m s m s).2 (.inr ⟨rfl, rfl⟩))
          ⟨fun hc => absurd hc hnot, fun hc => absurd (h.view.2 (.inr (.inl hc))) hnot⟩
        obtain ⟨o1, o2⟩ := this
        exact ⟨o2, by rw [o1]; simp⟩
      · rw [if_neg (by simp), if_neg hdue]
        exact ⟨⟨d, cur, h⟩, by simp⟩

theorem Trk.step (I : Inter α L) (hk : Kept was tc kept) (h : Trk m s tc b0 kept was l0 d cur σ) (o : Op α L) (ho : Foreign m s o) :
    ∃ d' cur', Trk m s tc b0 kept was l0 d' cur' (step I σ o).1 := by
  by_cases hf : ∃ i, o = .fire i
  · obtain ⟨i, rfl⟩ := hf
    exact (h.fire hk i).1
  · by_cases ha : ∃ t, o = .advance t
    · obtain ⟨t, rfl⟩ := ha
      simp only [Queued.step]
      split
      · rename_i hc; exact ⟨d, cur, h.advance t hc.1 hc.2⟩
      · exact ⟨d, cur, h⟩
    · exact ⟨d, cur, h.frame (step_frame I σ m s o h.wf ho (fun i hi => hf ⟨i, hi⟩) (fun t ht => ha ⟨t, ht⟩)) (step_wf I σ o h.wf)⟩

theorem Trk.run (I : Inter α L) (hk : Kept was tc kept) (ops : List (Op α L)) (h : Trk m s tc b0 kept was l0 d cur σ) (ho : ∀ o ∈ ops, Foreign m s o) :
    ∃ d' cur', Trk m s tc b0 kept was l0 d' cur' (run I σ ops) := by
  induction ops generalizing σ d cur with
  | nil => exact ⟨d, cur, h⟩
  | cons o l ih =>
    obtain ⟨d', cur', h'⟩ := h.step I hk o (ho o (by simp))
    exact ih h' fun o' ho' => ho o' (by simp [ho'])

end Verif.Queued
