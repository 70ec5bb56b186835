import Verif.Queued.Sampled
import Verif.Subdiv.Missed

/-! # C43 with the numerical intersection model: a long stay in range is told, once -/

namespace Verif.Queued

open Verif.Path Verif.Globe Verif.Subdiv Real
open Verif.Sphere (Tag)

section General

variable {α L : Type} [Field α] [LinearOrder α] [IsStrictOrderedRing α]

/-- What has been told at time `now` of a stay from `a` to `b` (without an exit if the mover does not leave), in the right order and neither early nor late. -/
structure Stays (a b : α) (leaves : Prop) [Decidable leaves] (now : α) (new : List (α × Bool)) : Prop where
  only : new <+: (a, true) :: if leaves then [(b, false)] else []
  entered : a < now → (a, true) ∈ new
  left : leaves → b < now → (b, false) ∈ new
  early : ∀ x ∈ new, x.1 ≤ now

/-- The kinds that are reported for a stay, and the times. -/
structure StayOf (e₁ e₂ : Entry α) : Prop where
  first : e₁.kind = .startInside ∧ e₁.time = 0 ∨ e₁.kind = .enter ∧ 0 ≤ e₁.time
  second : e₂.kind = .exit ∨ e₂.kind = .endInside
  order : e₁.time < e₂.time

/-- One pair to come. -/
theorem kept_one {tc : α} {k₁ k₂ : Tag} {a b : α} (hab : a < b) (hb : tc < b) (h1 : k₁ = .startInside ∧ a ≤ tc ∨ k₁ = .enter) :
    Kept false tc [((⟨k₁, a⟩, ⟨k₂, b⟩) : Entry α × Entry α)] := by
  refine ⟨by simp, ?_, ?_, ?_, ?_, ?_, by simp⟩
  · intro q hq'; rw [List.mem_singleton] at hq'; subst hq'; exact hab.le
  · intro q hq'; rw [List.mem_singleton] at hq'; subst hq'; exact hb.le
  · intro q hq'; rw [List.mem_singleton] at hq'; subst hq'; exact h1
  · intro q hq' _; rw [List.mem_singleton] at hq'; subst hq'; exact ⟨hb, hab⟩
  · intro j q hq' _
    obtain ⟨hj, -⟩ := List.getElem?_eq_some_iff.1 hq'
    simp only [List.length_singleton] at hj ⊢
    omega

/-- What is told of it. -/
theorem Trk.stays {m s : Nat} {tc : α} {b0 : Nat} {k₁ k₂ : Tag} {a b : α} (hb : tc < b) (hab : a < b) {l0 : List (α × Bool)} {d : Nat} {cur : Bool} {ρ : St α L}
    (h : Trk m s tc b0 [((⟨k₁, a⟩, ⟨k₂, b⟩) : Entry α × Entry α)] false l0 d cur ρ) :
    Stays (max a tc) b (k₂ = .exit) ρ.now (news false tc [((⟨k₁, a⟩, ⟨k₂, b⟩) : Entry α × Entry α)] d cur) := by
  have hmb : max a tc < b := max_lt hab hb
  have hd := h.dle
  simp only [List.length_singleton] at hd
  have hlive : d = 0 → cur = false ∧ (ρ.now = tc ∨ ρ.now ≤ a) ∨ cur = true ∧ ρ.now ≤ b := by
    rintro rfl
    obtain ⟨q, g1, g2, g3, g4, -⟩ := h.there 0 le_rfl (by simp)
    obtain ⟨j, r, k1, k2, k3, k4, k5, k6, k7⟩ := h.live _ q g1 g2 g3 g4
    have hj : j = 0 := by omega
    subst hj
    simp only [List.getElem?_cons_zero, Option.some.injEq] at k3
    subst k3
    rcases k7 with ⟨-, c1, -, c2⟩ | ⟨c1, ⟨-, c2⟩ | ⟨-, c2, -⟩⟩
    · exact .inr ⟨c1, c2⟩
    · exact .inl ⟨by simpa using c1, .inl c2⟩
    · exact .inl ⟨by simpa using c1, .inr c2⟩
  rcases Nat.le_one_iff_eq_zero_or_eq_one.1 hd with rfl | rfl
  · rcases hlive rfl with ⟨rfl, hl⟩ | ⟨rfl, hl⟩
    · rw [news_zero]
      have hlm : ρ.now ≤ max a tc := by rcases hl with hl | hl <;> rw [le_max_iff] <;> [exact .inr hl.le; exact .inl hl]
      exact ⟨List.nil_prefix, fun hc => absurd hlm (not_le.2 hc), fun _ hc => absurd hlm (not_le.2 (hmb.trans hc)), by simp⟩
    · obtain ⟨q, hq', hx⟩ := h.isExit rfl
      simp only [List.getElem?_cons_zero, Option.some.injEq] at hq'
      subst hq'
      dsimp only at hx
      have hp := (h.past 0 _ rfl).1 (.inr ⟨rfl, rfl⟩)
      have e : news false tc [((⟨k₁, a⟩, ⟨k₂, b⟩) : Entry α × Entry α)] 0 true = [(max a tc, true)] := by
        simp [news, ent]
      rw [e]
      refine ⟨⟨[(b, false)], by rw [if_pos hx]; rfl⟩, fun _ => by simp, fun _ hc => absurd hl (not_le.2 hc), ?_⟩
      intro x hx
      rw [List.mem_singleton] at hx
      subst hx
      exact hp
  · have hc : cur = false := by
      cases cur with
      | false => rfl
      | true => obtain ⟨q, hq', -⟩ := h.isExit rfl; simp at hq'
    subst hc
    have e : news false tc [((⟨k₁, a⟩, ⟨k₂, b⟩) : Entry α × Entry α)] 1 false = (max a tc, true) :: if k₂ = .exit then [(b, false)] else [] := by
      simp [news, ent, ext, List.range_succ]
    have hp := h.past 0 _ rfl
    dsimp only at hp
    rw [e]
    refine ⟨List.prefix_rfl, fun _ => by simp, fun hx _ => by simp [hx], ?_⟩
    intro x hx
    rcases List.mem_cons.1 hx with rfl | hx
    · exact hp.1 (.inl (by omega))
    · split at hx
      · rename_i hx'
        rw [List.mem_singleton] at hx
        subst hx
        exact hp.2 (by omega) hx'
      · cases hx

/-- `c43_one_stay` when the processes of earlier trips have ended. -/
theorem one_stay_quiet (I : Inter α L) (t0 : α) (det : Nat → Option Bool) (ops₀ : List (Op α L)) (σ : St α L) (hσ : σ = run I (St.init t0 det) ops₀)
    (m s : Nat) (speed : α) (p f : L) (hdet : σ.detect m = some true) (hs : s ∈ σ.sensors) (hq : Quiet σ m s) (hnew : s ∉ σ.inView m)
    (hok : (step I σ (.start m speed [p, f])).2 = .ok) (e₁ e₂ : Entry α) (pt : α) (hI : I p f speed s = some ⟨[e₁, e₂], pt⟩) (hst : StayOf e₁ e₂)
    (ops : List (Op α L)) (hops : ∀ o ∈ ops, Foreign m s o) :
    ∃ new, told (run I (step I σ (.start m speed [p, f])).1 ops) m s = told σ m s ++ new ∧
      Stays (σ.now + e₁.time) (σ.now + e₂.time) (e₂.kind = .exit) (run I (step I σ (.start m speed [p, f])).1 ops).now new ∧
      ∀ (i : Nat) (q : Proc α), (run I (step I σ (.start m speed [p, f])).1 ops).procs[i]? = some q → q.mover = m → q.sensor = s →
        (fire (run I (step I σ (.start m speed [p, f])).1 ops) i).2 ≠ .error := by
  have hw : Wf σ := hσ ▸ run_wf I ops₀ _ (init_wf t0 det)
  obtain ⟨k₁, a⟩ := e₁
  obtain ⟨k₂, b⟩ := e₂
  obtain ⟨hk1, hk2, hab⟩ := hst
  dsimp only at hk1 hk2 hab ⊢
  have ha : 0 ≤ a := by rcases hk1 with ⟨-, h⟩ | ⟨-, h⟩ <;> linarith
  have hps : processPair I ⟨speed, [p, f], σ.now⟩ s = some [(⟨k₁, σ.now + a⟩, ⟨k₂, σ.now + b⟩)] := by
    rcases hk1 with ⟨rfl, -⟩ | ⟨rfl, -⟩ <;> rcases hk2 with rfl | rfl <;> simp [processPair, scan, hI, absorb, pairUp, valid]
  obtain ⟨b0, ht⟩ := trk_start I σ hw m s speed [p, f] hdet hs hq hok _ hps
  have hkeep : keep σ.now [((⟨k₁, σ.now + a⟩, ⟨k₂, σ.now + b⟩) : Entry α × Entry α)] = [(⟨k₁, σ.now + a⟩, ⟨k₂, σ.now + b⟩)] := by
    unfold keep
    rw [List.filter_cons_of_pos]
    · rfl
    · simp only [decide_eq_true_eq]
      rintro ⟨-, hc⟩
      linarith
  rw [hkeep] at ht
  rw [decide_eq_false hnew] at ht
  have hk : Kept false σ.now [((⟨k₁, σ.now + a⟩, ⟨k₂, σ.now + b⟩) : Entry α × Entry α)] := by
    refine kept_one (by linarith) (by linarith) ?_
    rcases hk1 with ⟨h, h'⟩ | ⟨h, -⟩
    · exact .inl ⟨h, by rw [h', add_zero]⟩
    · exact .inr h
  obtain ⟨d, cur, h⟩ := ht.run I hk ops hops
  have hst := h.stays (by linarith) (by linarith)
  rw [max_eq_left (show σ.now ≤ σ.now + a by linarith)] at hst
  exact ⟨_, h.told, hst, fun i => (h.fire hk i).2⟩

/-- **C43, a stay on a leg is told once.** With any intersection model: if for the only leg of the path the two ends of a stay in range are reported, then, whatever else
happens, the sensor (which does not have the mover in view) is told of the entry at its time (at the start if the mover starts in range), of the exit at its time unless the leg
ends in range, and of nothing else, and no process fails. -/
theorem c43_one_stay (I : Inter α L) (t0 : α) (det : Nat → Option Bool) (ops₀ : List (Op α L)) (σ : St α L) (hσ : σ = run I (St.init t0 det) ops₀)
    (m s : Nat) (speed : α) (p f : L) (hdet : σ.detect m = some true) (hs : s ∈ σ.sensors) (hq : Dead σ m s) (hnew : s ∉ σ.inView m)
    (hok : (step I σ (.start m speed [p, f])).2 = .ok) (e₁ e₂ : Entry α) (pt : α) (hI : I p f speed s = some ⟨[e₁, e₂], pt⟩) (hst : StayOf e₁ e₂)
    (ops : List (Op α L)) (hops : ∀ o ∈ ops, Foreign m s o) :
    ∃ new, told (run I (step I σ (.start m speed [p, f])).1 ops) m s = told σ m s ++ new ∧
      Stays (σ.now + e₁.time) (σ.now + e₂.time) (e₂.kind = .exit) (run I (step I σ (.start m speed [p, f])).1 ops).now new ∧
      ∀ (i : Nat) (q : Proc α), (run I (step I σ (.start m speed [p, f])).1 ops).procs[i]? = some q → q.mover = m → q.sensor = s →
        (fire (run I (step I σ (.start m speed [p, f])).1 ops) i).2 ≠ .error := by
  obtain ⟨ops₁, τ, hτ, hsim, hquiet, hok', hall⟩ := Dead.restart I t0 det ops₀ σ hσ m s speed [p, f] hq hok
  obtain ⟨ops', hops', hrun⟩ := hall ops hops
  obtain ⟨new, h1, h2, h3⟩ := one_stay_quiet I t0 det ops₁ τ hτ m s speed p f (by rw [hsim.detect]; exact hdet) (by rw [hsim.sensors]; exact hs) hquiet
    (by rw [hsim.inView]; exact hnew) hok' e₁ e₂ pt hI hst ops' hops'
  rw [hsim.told, hrun.told] at h1
  rw [hsim.now, hrun.now] at h2
  exact ⟨new, h1, h2, hrun.noError m s h3⟩

/-- **C43, a stay on a leg, told to a sensor that is added on the way.** The sensor, which is new and added while the mover is on its only leg, is told of the entry at its time, or at once
if that has passed; of the exit at its time, unless the leg ends in range; and of nothing else, in particular of nothing if the stay is over. Excluded: the instant of the exit
(`c43_sensor_at_exit`). -/
theorem c43_one_stay_added (I : Inter α L) (t0 : α) (det : Nat → Option Bool) (ops₀ : List (Op α L)) (σ : St α L) (hσ : σ = run I (St.init t0 det) ops₀)
    (m s : Nat) (speed start : α) (p f : L) (ht : σ.movers.get? m = some ⟨speed, [p, f], start⟩) (hle : start ≤ σ.now) (hdet : σ.detect m = some true) (hq : Quiet σ m s)
    (hnew : s ∉ σ.inView m) (hok : (step I σ (.addSensor s)).2 = .ok) (e₁ e₂ : Entry α) (pt : α) (hI : I p f speed s = some ⟨[e₁, e₂], pt⟩) (hst : StayOf e₁ e₂)
    (hne : σ.now ≠ start + e₂.time) (ops : List (Op α L)) (hops : ∀ o ∈ ops, Foreign m s o) :
    ∃ new, told (run I (step I σ (.addSensor s)).1 ops) m s = told σ m s ++ new ∧
      (σ.now < start + e₂.time → Stays (max (start + e₁.time) σ.now) (start + e₂.time) (e₂.kind = .exit) (run I (step I σ (.addSensor s)).1 ops).now new) ∧
      (start + e₂.time < σ.now → new = []) ∧
      ∀ (i : Nat) (q : Proc α), (run I (step I σ (.addSensor s)).1 ops).procs[i]? = some q → q.mover = m → q.sensor = s →
        (fire (run I (step I σ (.addSensor s)).1 ops) i).2 ≠ .error := by
  have hw : Wf σ := hσ ▸ run_wf I ops₀ _ (init_wf t0 det)
  obtain ⟨k₁, a⟩ := e₁
  obtain ⟨k₂, b⟩ := e₂
  obtain ⟨hk1, hk2, hab⟩ := hst
  dsimp only at hk1 hk2 hab hne ⊢
  have hps : processPair I ⟨speed, [p, f], start⟩ s = some [(⟨k₁, start + a⟩, ⟨k₂, start + b⟩)] := by
    rcases hk1 with ⟨rfl, -⟩ | ⟨rfl, -⟩ <;> rcases hk2 with rfl | rfl <;> simp [processPair, scan, hI, absorb, pairUp, valid]
  obtain ⟨b0, htr⟩ := trk_sensor I σ hw m s _ ht hdet hq hok _ hps
  rw [decide_eq_false hnew] at htr
  rcases lt_or_gt_of_ne hne with hlt | hgt
  · have hkeep : keep σ.now [((⟨k₁, start + a⟩, ⟨k₂, start + b⟩) : Entry α × Entry α)] = [(⟨k₁, start + a⟩, ⟨k₂, start + b⟩)] := by
      unfold keep
      rw [List.filter_cons_of_pos]
      · rfl
      · simp only [decide_eq_true_eq]
        rintro ⟨-, hc⟩
        linarith
    rw [hkeep] at htr
    have hk : Kept false σ.now [((⟨k₁, start + a⟩, ⟨k₂, start + b⟩) : Entry α × Entry α)] := by
      refine kept_one (by linarith) hlt ?_
      rcases hk1 with ⟨h, h'⟩ | ⟨h, -⟩
      · exact .inl ⟨h, by rw [h', add_zero]; exact hle⟩
      · exact .inr h
    obtain ⟨d, cur, h⟩ := htr.run I hk ops hops
    exact ⟨_, h.told, fun _ => h.stays hlt (by linarith), fun hc => absurd hc (not_lt.2 hlt.le), fun i => (h.fire hk i).2⟩
  · have hkeep : keep σ.now [((⟨k₁, start + a⟩, ⟨k₂, start + b⟩) : Entry α × Entry α)] = [] := by
      unfold keep
      rw [List.filter_cons_of_neg]
      · rfl
      · simp only [decide_eq_true_eq, not_not]
        exact ⟨by linarith, hgt⟩
    rw [hkeep] at htr
    have hk : Kept false σ.now ([] : List (Entry α × Entry α)) := ⟨by simp, by simp, by simp, by simp, by simp, by simp, by simp⟩
    obtain ⟨d, cur, h⟩ := htr.run I hk ops hops
    have hd : d = 0 := by have := h.dle; simpa using this
    subst hd
    have hc : cur = false := by
      cases cur with
      | false => rfl
      | true => obtain ⟨q, hq', -⟩ := h.isExit rfl; simp at hq'
    subst hc
    exact ⟨_, h.told, fun hc => absurd hc (not_lt.2 hgt.le), fun _ => news_zero _ _ _, fun i => (h.fire hk i).2⟩

end General

/-- From -3 to 3, in range from -1 to 1. -/
example (ops : List (Op ℚ ℚ)) (hops : ∀ o ∈ ops, Foreign 1 7 o) :
    ∃ new, told (run lineI (step lineI line0 (.start 1 1 [-3, 3])).1 ops) 1 7 = new ∧ Stays (2 : ℚ) 4 (Tag.exit = .exit) (run lineI (step lineI line0 (.start 1 1 [-3, 3])).1 ops).now new := by
  have hI : lineI (-3) 3 1 7 = some ⟨[⟨.enter, 2⟩, ⟨.exit, 4⟩], 6⟩ := rfl
  obtain ⟨new, h1, h2, -⟩ := c43_one_stay lineI 0 _ [.addSensor 7] line0 rfl 1 7 1 (-3) 3 rfl (by decide)
    (by intro p hp; simp [line0, run, step, addSensor, find, St.init, Dict.keys] at hp) (by decide) (by decide +kernel) _ _ 6 hI ⟨.inr ⟨rfl, by norm_num⟩, .inl rfl, by norm_num⟩ ops hops
  have hnow : line0.now = 0 := by decide
  have htold : told line0 1 7 = [] := by decide
  rw [hnow, zero_add, zero_add] at h2
  rw [htold, List.nil_append] at h1
  exact ⟨new, h1, h2⟩

/-- A sensor added when the mover from -3 to 3 is in its range, and one added when it has left. -/
example (ops : List (Op ℚ ℚ)) (hops : ∀ o ∈ ops, Foreign 1 8 o) :
    let σ := run lineI line0 [.start 1 1 [-3, 3], .fire 0, .advance 2, .fire 0, .advance 3]
    ∃ new, told (run lineI (step lineI σ (.addSensor 8)).1 ops) 1 8 = new ∧ Stays (3 : ℚ) 4 (Tag.exit = .exit) (run lineI (step lineI σ (.addSensor 8)).1 ops).now new := by
  intro σ
  have hI : lineI (-3) 3 1 8 = some ⟨[⟨.enter, 2⟩, ⟨.exit, 4⟩], 6⟩ := rfl
  have hnow : σ.now = 3 := by decide +kernel
  have htold : told σ 1 8 = [] := by decide +kernel
  obtain ⟨new, h1, h2, -⟩ := c43_one_stay_added lineI 0 _ [.addSensor 7, .start 1 1 [-3, 3], .fire 0, .advance 2, .fire 0, .advance 3] σ rfl 1 8 1 0 (-3) 3 (by decide +kernel)
    (by rw [hnow]; norm_num) (by decide +kernel) (by unfold Quiet; decide +kernel) (by decide +kernel) (by decide +kernel) _ _ 6 hI ⟨.inr ⟨rfl, by norm_num⟩, .inl rfl, by norm_num⟩
    (by rw [hnow]; norm_num) ops hops
  have := h2 (by rw [hnow]; norm_num)
  rw [hnow, zero_add, zero_add, show max (2 : ℚ) 3 = 3 from by norm_num] at this
  rw [htold, List.nil_append] at h1
  exact ⟨new, h1, this⟩

example (ops : List (Op ℚ ℚ)) (hops : ∀ o ∈ ops, Foreign 1 8 o) :
    let σ := run lineI line0 [.start 1 1 [-3, 3], .fire 0, .advance 2, .fire 0, .advance 4, .fire 0, .advance 5]
    told (run lineI (step lineI σ (.addSensor 8)).1 ops) 1 8 = [] := by
  intro σ
  have hI : lineI (-3) 3 1 8 = some ⟨[⟨.enter, 2⟩, ⟨.exit, 4⟩], 6⟩ := rfl
  have hnow : σ.now = 5 := by decide +kernel
  have htold : told σ 1 8 = [] := by decide +kernel
  obtain ⟨new, h1, -, h2, -⟩ := c43_one_stay_added lineI 0 _ [.addSensor 7, .start 1 1 [-3, 3], .fire 0, .advance 2, .fire 0, .advance 4, .fire 0, .advance 5] σ rfl 1 8 1 0 (-3) 3 (by decide +kernel)
    (by rw [hnow]; norm_num) (by decide +kernel) (by unfold Quiet; decide +kernel) (by decide +kernel) (by decide +kernel) _ _ 6 hI ⟨.inr ⟨rfl, by norm_num⟩, .inl rfl, by norm_num⟩
    (by rw [hnow]; norm_num) ops hops
  rw [htold, List.nil_append, h2 (by rw [hnow]; norm_num)] at h1
  exact h1

/-- The kinds when the samples from `i` to `j` are in range. -/
theorem kindsOf_stay {st : ℕ → Bool} {n i j : ℕ} (hn : 0 < n) (h1 : i ≤ j) (h2 : j ≤ n) (h : ∀ l ≤ n, st l = true ↔ i ≤ l ∧ l ≤ j) :
    kindsOf st n = [if i = 0 then .startInside else .enter, if j = n then .endInside else .exit] := by
  have hf : ∀ l ≤ n, st l = decide (i ≤ l ∧ l ≤ j) := fun l hl => by rw [Bool.eq_iff_iff, h l hl]; simp
  have key : ∀ m ≤ n, (List.range m).filterMap (fun l => if st l = st (l + 1) then none else some (if st l then Crossing.Kind.exit else .enter)) =
      (if 0 < i ∧ i ≤ m then [.enter] else []) ++ if j < m then [.exit] else [] := by
    intro m
    induction m with
    | zero =>
      intro _
      simp only [List.range_zero, List.filterMap_nil]
      rw [if_neg (by omega), if_neg (by omega)]
      rfl
    | succ m ih =>
      intro hm
      rw [List.range_succ, List.filterMap_append, ih (by omega)]
      simp only [List.filterMap_cons, List.filterMap_nil]
      rw [hf m (by omega), hf (m + 1) hm]
      by_cases c1 : i ≤ m ∧ m ≤ j <;> by_cases c2 : i ≤ m + 1 ∧ m + 1 ≤ j
      · rw [decide_eq_true c1, decide_eq_true c2]
        have e1 : (0 < i ∧ i ≤ m) ↔ (0 < i ∧ i ≤ m + 1) := by omega
        have e2 : ¬ j < m := by omega
        have e3 : ¬ j < m + 1 := by omega
        simp [e1, e2, e3]
      · rw [decide_eq_true c1, decide_eq_false c2]
        have e1 : (0 < i ∧ i ≤ m) ↔ (0 < i ∧ i ≤ m + 1) := by omega
        have e2 : ¬ j < m := by omega
        have e3 : j < m + 1 := by omega
        simp [e1, e2, e3]
      · rw [decide_eq_false c1, decide_eq_true c2]
        have e1 : ¬ (0 < i ∧ i ≤ m) := by omega
        have e1' : 0 < i ∧ i ≤ m + 1 := by omega
        have e2 : ¬ j < m := by omega
        have e3 : ¬ j < m + 1 := by omega
        rw [if_neg e1, if_pos e1', if_neg e2, if_neg e3]
        rfl
      · rw [decide_eq_false c1, decide_eq_false c2]
        have e1 : (0 < i ∧ i ≤ m) ↔ (0 < i ∧ i ≤ m + 1) := by omega
        have e2 : j < m ↔ j < m + 1 := by omega
        simp [e1, e2]
  unfold kindsOf
  rw [key n le_rfl, hf 0 (by omega), hf n le_rfl]
  by_cases c1 : i = 0 <;> by_cases c2 : j = n
  · have e1 : ¬ (0 < i ∧ i ≤ n) := by omega
    have e2 : ¬ j < n := by omega
    have e3 : i ≤ n := by omega
    simp [c1, c2, hn]
  · have e2 : j < n := by omega
    have e3 : ¬ n ≤ j := by omega
    simp [c1, c2, e2, e3]
  · have e1 : 0 < i ∧ i ≤ n := by omega
    simp [c1, c2, e1]
  · have e1 : 0 < i ∧ i ≤ n := by omega
    have e2 : j < n := by omega
    have e3 : ¬ n ≤ j := by omega
    simp [c1, c2, e1, e2, e3]

/-- A mover on a level leg from `p` to `f` is in range exactly from the angle `A` to the angle `B` (seen from the centre of the earth), for at least 9261 m of the leg. It starts in range
if `A ≤ 0` and ends in range if `B` is beyond the end; the end of the leg is not within 2e-7 of `B`. -/
structure OneStay (k ka r : ℝ) (p f c : Geo) (A B : ℝ) : Prop where
  level : p.alt = f.alt
  long : R * max A 0 + 9261 ≤ R * min B (angleOf p f)
  over : B + 2 / 10 ^ 7 ≤ angleOf p f ∨ angleOf p f + 2 / 10 ^ 7 ≤ B
  range : ∀ ψ, 0 ≤ ψ → ψ ≤ angleOf p f + 2 / 10 ^ 7 → (InRange (r * k) (inSpace ka c) (travel p f ψ) (p.alt * ka) ↔ A ≤ ψ ∧ ψ ≤ B)

/-- The answer of the search for such a leg. -/
structure Found (k v A B C pt : ℝ) (x y : Hit) : Prop where
  kind₁ : x.kind = if A ≤ 0 then .startInside else .enter
  kind₂ : y.kind = if C < B then .endInside else .exit
  started : A ≤ 0 → x.time = 0
  after : R * max A 0 ≤ v * k * x.time
  soon : v * k * x.time < R * max A 0 + 46.4
  before : v * k * y.time ≤ R * B
  late : y.kind = .exit → R * B - 46.4 < v * k * y.time
  ended : y.kind = .endInside → v * k * |y.time - pt| ≤ 0.8

theorem stay_answer {k ka v r : ℝ} {p f c : Geo} {A B : ℝ} (hk : 0 < k) (hka : 0 < ka) (hv : 0 < v) (hC : angleOf p f ≤ π - 1 / 10 ^ 6) (hst : OneStay k ka r p f c A B)
    {ans : Answer} (h : subdivide k ka p f v c r = .ok ans) :
    ∃ x y, ans = .hits [x, y] (R * angleOf p f / (k * v)) ∧ Found k v A B (angleOf p f) (R * angleOf p f / (k * v)) x y := by
  obtain ⟨hlevel, hlong, hB, hrange⟩ := hst
  have hR : R = 6378137 := rfl
  have hRp := R_pos
  have halt : ∀ z ∈ Set.uIcc (p.alt * ka) (f.alt * ka), z = p.alt * ka := by
    intro z hz; rw [← hlevel, Set.uIcc_self] at hz; exact hz
  have hm1 : A ≤ max A 0 := le_max_left _ _
  have hm2 : 0 ≤ max A 0 := le_max_right _ _
  have hm3 : min B (angleOf p f) ≤ B := min_le_left _ _
  have hm4 : min B (angleOf p f) ≤ angleOf p f := min_le_right _ _
  have hgap : max A 0 + 1 / 1000 ≤ min B (angleOf p f) := by
    rw [hR] at hlong; linarith
  obtain ⟨n, t, st, n3, hlt, ht, ht0, hs, hkinds⟩ := c72_kinds hC h
  obtain ⟨hne, -⟩ := c72_noticed hC h (max A 0) hm2 (hlong.trans (mul_le_mul_of_nonneg_left hm4 hRp.le)) (fun ψ q1 q2 z hz => by
    rw [halt z hz]
    have : ψ ≤ min B (angleOf p f) := by
      by_contra hc
      have := mul_lt_mul_of_pos_left (not_le.1 hc) hRp
      linarith
    exact (hrange ψ (by linarith) (by norm_num; linarith)).2 ⟨by linarith, by linarith⟩)
  have hn3 : (3 : ℝ) ≤ n := by exact_mod_cast n3
  have hn0 : (0 : ℝ) < n := by linarith
  have htt := abs_le.1 ht
  have hs' : ∀ i ≤ n, st i = true ↔ A ≤ t * (i / n) ∧ t * (i / n) ≤ B := by
    intro i hi
    have hi' : (i : ℝ) / n ≤ 1 := by rw [div_le_one hn0]; exact_mod_cast hi
    have hi0 : (0 : ℝ) ≤ (i : ℝ) / n := by positivity
    have e : p.alt * ka + (f.alt * ka - p.alt * ka) * i / n = p.alt * ka := by rw [hlevel]; ring
    rw [hs i hi, e]
    refine hrange _ (by positivity) ?_
    have : t * (i / n) ≤ t * 1 := mul_le_mul_of_nonneg_left hi' ht0.le
    norm_num at htt ⊢
    linarith
  -- the samples in range
  have hmono : ∀ i j : ℕ, i ≤ j → t * (i / n) ≤ t * (j / n) := by
    intro i j hij
    have : (i : ℝ) ≤ j := by exact_mod_cast hij
    gcongr
  have hsome : ∃ i ≤ n, st i = true := by
    by_contra hc
    push Not at hc
    apply hne
    rw [hkinds]
    unfold kindsOf
    have hf : ∀ i ≤ n, st i = false := fun i hi => by simpa using hc i hi
    rw [hf 0 (by omega), hf n le_rfl, List.filterMap_eq_nil_iff.2]
    · rfl
    · intro i hi
      rw [List.mem_range] at hi
      rw [hf i (by omega), hf (i + 1) (by omega), if_pos rfl]
  obtain ⟨i0, hi0n, hi0⟩ := hsome
  classical
  let i := Nat.find (p := fun i => i ≤ n ∧ st i = true) ⟨i0, hi0n, hi0⟩
  have hi : i ≤ n ∧ st i = true := Nat.find_spec (p := fun i => i ≤ n ∧ st i = true) ⟨i0, hi0n, hi0⟩
  have himin : ∀ l, l ≤ n → st l = true → i ≤ l := fun l h1 h2 => Nat.find_min' _ ⟨h1, h2⟩
  let j := Nat.findGreatest (fun l => st l = true) n
  have hj : st j = true := Nat.findGreatest_spec (P := fun l => st l = true) hi0n hi0
  have hjn : j ≤ n := Nat.findGreatest_le n
  have hjmax : ∀ l, l ≤ n → st l = true → l ≤ j := fun l h1 h2 => Nat.le_findGreatest h1 h2
  have hstay : ∀ l ≤ n, st l = true ↔ i ≤ l ∧ l ≤ j := by
    intro l hl
    refine ⟨fun hc => ⟨himin l hl hc, hjmax l hl hc⟩, fun ⟨h1, h2⟩ => ?_⟩
    rw [hs' l hl]
    exact ⟨((hs' i hi.1).1 hi.2).1.trans (hmono i l h1), (hmono l j h2).trans ((hs' j hjn).1 hj).2⟩
  have hi1 : i = 0 ↔ A ≤ 0 := by
    constructor
    · intro hz
      have := ((hs' i hi.1).1 hi.2).1
      rw [hz] at this
      simpa using this
    · intro hz
      have := himin 0 (by omega) ((hs' 0 (by omega)).2 ⟨by simpa using hz, by simp; linarith⟩)
      omega
  have hj1 : j = n ↔ angleOf p f < B := by
    norm_num at htt hB
    constructor
    · intro hz
      have := ((hs' j hjn).1 hj).2
      rw [hz, div_self hn0.ne', mul_one] at this
      rcases hB with hB | hB <;> linarith
    · intro hz
      have := hjmax n le_rfl ((hs' n le_rfl).2 (by
        rw [div_self hn0.ne', mul_one]
        rcases hB with hB | hB
        · linarith
        · exact ⟨by linarith, by linarith⟩))
      omega
  rw [kindsOf_stay (by omega) (himin j hjn hj) hjn hstay] at hkinds
  simp only [hi1, hj1] at hkinds
  obtain ⟨l, pt, rfl⟩ : ∃ l pt, ans = .hits l pt := by
    cases ans with
    | bad => cases hkinds
    | hits l pt => exact ⟨l, pt, rfl⟩
  obtain ⟨x, y, rfl, hx, hy⟩ := two_kinds hkinds
  obtain ⟨-, hpt, hall⟩ := c72_hits hk hka hv hC h
  rw [← hpt]
  have hvk : 0 < v * k := mul_pos hv hk
  have e1 : v * k * pt = R * angleOf p f := by rw [hpt]; field_simp
  -- the angle at a time
  have hang : ∀ T, 0 ≤ T → v * k * (T - pt) ≤ 0.8 → ∀ z ∈ Set.uIcc (p.alt * ka) (f.alt * ka),
      (InRange (r * k) (inSpace ka c) (travel p f (v * k * T / R)) z ↔ R * A ≤ v * k * T ∧ v * k * T ≤ R * B) := by
    intro T h1 h2 z hz
    rw [halt z hz, hrange _ (by positivity) ?_, le_div_iff₀ hRp, div_le_iff₀ hRp, mul_comm A, mul_comm B]
    rw [div_le_iff₀ hRp, add_mul, mul_comm (angleOf p f), ← e1, hR]
    norm_num at h2 ⊢
    linarith [mul_sub (v * k) T pt]
  have hxr := hall x (by simp)
  have hyr := hall y (by simp)
  have hx1 := (hang x.time hxr.begun hxr.arrives _ hxr.height).1 hxr.inRange
  have hy1 := (hang y.time hyr.begun hyr.arrives _ hyr.height).1 hyr.inRange
  have hsub : ∀ T U : ℝ, v * k * (T - U) = v * k * T - v * k * U := fun T U => mul_sub _ _ _
  refine ⟨x, y, rfl, hx, hy, fun hz => (hxr.start (by rw [hx, if_pos hz])).1, ?_, ?_, hy1.2, fun hy' => ?_, fun hy' => (hyr.finish hy').1⟩
  · rcases le_total A 0 with hz | hz
    · rw [max_eq_right hz, mul_zero]
      exact mul_nonneg hvk.le hxr.begun
    · rw [max_eq_left hz]; exact hx1.1
  · by_cases hz : A ≤ 0
    · rw [max_eq_right hz, (hxr.start (by rw [hx, if_pos hz])).1]; norm_num
    · obtain ⟨T, z, q0, q1, q2, q3, q4⟩ := hxr.enter (by rw [hx, if_neg hz])
      have hT := (hang T q0 (by have h1 := hxr.arrives; have h2 := mul_lt_mul_of_pos_left q1 hvk; rw [hsub] at h1 ⊢; linarith) z q3).not.1 q4
      have m1 := mul_lt_mul_of_pos_left q1 hvk
      rw [hsub] at q2
      have hTA : v * k * T < R * A := by
        by_contra hc
        exact hT ⟨not_lt.1 hc, by linarith⟩
      rw [max_eq_left (not_le.1 hz).le]
      linarith
  · obtain ⟨T', z', u1, u2, u3, u4, u5⟩ := hyr.exit hy'
    have hT' := (hang T' (by linarith [hyr.begun]) u3 z' u4).not.1 u5
    have m2 := mul_lt_mul_of_pos_left u1 hvk
    rw [hsub] at u2
    have hTB : R * B < v * k * T' := by
      by_contra hc
      exact hT' ⟨by linarith, not_lt.1 hc⟩
    linarith

/-- The answer as the manager reads it. -/
theorem Found.stayOf {k v A B C pt : ℝ} {x y : Hit} (hvk : 0 < v * k) (hpt : v * k * pt = R * C) (hlong : R * max A 0 + 9261 ≤ R * min B C) (h : Found k v A B C pt x y) :
    StayOf (⟨kindOf x.kind, x.time⟩ : Entry ℝ) ⟨kindOf y.kind, y.time⟩ := by
  have h0 : 0 ≤ x.time := by
    have : 0 ≤ v * k * x.time := (mul_nonneg R_pos.le (le_max_right _ _)).trans h.after
    exact nonneg_of_mul_nonneg_right this hvk
  have b1 : R * min B C ≤ R * B := mul_le_mul_of_nonneg_left (min_le_left _ _) R_pos.le
  have b2 : R * min B C ≤ R * C := mul_le_mul_of_nonneg_left (min_le_right _ _) R_pos.le
  have hs := h.soon
  refine ⟨?_, ?_, ?_⟩
  · by_cases hz : A ≤ 0
    · exact .inl ⟨by rw [h.kind₁, if_pos hz]; rfl, h.started hz⟩
    · exact .inr ⟨by rw [h.kind₁, if_neg hz]; rfl, h0⟩
  · by_cases hz : C < B
    · exact .inr (by rw [h.kind₂, if_pos hz]; rfl)
    · exact .inl (by rw [h.kind₂, if_neg hz]; rfl)
  · refine lt_of_mul_lt_mul_left ?_ hvk.le
    by_cases hz : C < B
    · have he := h.ended (by rw [h.kind₂, if_pos hz])
      have := neg_abs_le (y.time - pt)
      have := mul_le_mul_of_nonneg_left this hvk.le
      rw [mul_neg, mul_sub, hpt] at this
      norm_num at he hs
      linarith
    · have hl := h.late (by rw [h.kind₂, if_neg hz])
      norm_num at hl hs
      linarith

/-- **C43 with the numerical model on the spherical earth: a long stay is told once.** A detectable mover starts on a level leg on which it is in range from the angle `A` to `B`, for at
least 9261 m of the leg. If it has started without an exception, then, whatever else happens, the sensor is told of one entry, within 46.4 m after the mover
gets in range, at the start if it starts in range; and of one exit, within 46.4 m before it leaves, unless the leg ends in range; each at its time; and no process fails.
Missing: shorter stays (`c72_missed`), legs that are not level, other paths. -/
theorem c43_sampled_stay_partial {k ka v : ℝ} (hk : 0 < k) (hka : 0 < ka) (hv : 0 < v) (place : Nat → Geo) (radius : Nat → ℝ) (t0 : ℝ) (det : Nat → Option Bool) (ops₀ : List (Op ℝ Geo))
    (σ : St ℝ Geo) (hσ : σ = run (subI k ka place radius) (St.init t0 det) ops₀) (m s : Nat) (p f : Geo)
    (hdet : σ.detect m = some true) (hs : s ∈ σ.sensors) (hq : Dead σ m s) (hnew : s ∉ σ.inView m) (hok : (step (subI k ka place radius) σ (.start m v [p, f])).2 = .ok)
    (hC : angleOf p f ≤ π - 1 / 10 ^ 6) {A B : ℝ} (hst : OneStay k ka (radius s) p f (place s) A B) (ops : List (Op ℝ Geo)) (hops : ∀ o ∈ ops, Foreign m s o) :
    let ρ := run (subI k ka place radius) (step (subI k ka place radius) σ (.start m v [p, f])).1 ops
    ∃ a b new, (A ≤ 0 → a = 0) ∧ R * max A 0 ≤ v * k * a ∧ v * k * a < R * max A 0 + 46.4 ∧ (B < angleOf p f → R * B - 46.4 < v * k * b ∧ v * k * b ≤ R * B) ∧
      told ρ m s = told σ m s ++ new ∧ Stays (σ.now + a) (σ.now + b) (B < angleOf p f) ρ.now new ∧
      ∀ (i : Nat) (q : Proc ℝ), ρ.procs[i]? = some q → q.mover = m → q.sensor = s → (fire ρ i).2 ≠ .error := by
  intro ρ
  have hps : ∃ ps, processPair (subI k ka place radius) ⟨v, [p, f], σ.now⟩ s = some ps := by
    have hok' := hok
    simp only [step, startMover, hdet] at hok'
    split at hok'
    · cases hok'
    · exact find_pair _ _ _ m s _ (List.mem_map.2 ⟨s, hs, rfl⟩) (Dict.get?_set_self _ _ _) hok'
  obtain ⟨ans, hans⟩ : ∃ ans, subdivide k ka p f v (place s) (radius s) = .ok ans := by
    obtain ⟨ps, hps⟩ := hps
    cases h : subdivide k ka p f v (place s) (radius s) with
    | ok ans => exact ⟨ans, rfl⟩
    | error e => simp [processPair, scan, subI, h, legOf] at hps
  obtain ⟨x, y, rfl, hf⟩ := stay_answer hk hka hv hC hst hans
  have hI : subI k ka place radius p f v s = some ⟨[⟨kindOf x.kind, x.time⟩, ⟨kindOf y.kind, y.time⟩], R * angleOf p f / (k * v)⟩ := by
    show legOf (subdivide k ka p f v (place s) (radius s)) = _
    rw [hans]
    rfl
  have hso := hf.stayOf (mul_pos hv hk) (by field_simp) hst.long
  obtain ⟨new, h1, h2, h3⟩ := c43_one_stay (subI k ka place radius) t0 det ops₀ σ hσ m s v p f hdet hs hq hnew hok _ _ _ hI hso ops hops
  have hiff : kindOf y.kind = .exit ↔ B < angleOf p f := by
    rw [hf.kind₂]
    have := hst.over
    norm_num at this
    by_cases hz : angleOf p f < B
    · rw [if_pos hz]; simp [kindOf, hz.le]
    · rw [if_neg hz]; simp only [kindOf, true_iff]
      rcases this with h | h <;> linarith
  refine ⟨x.time, y.time, new, hf.started, hf.after, hf.soon, fun hz => ⟨hf.late (kindOf_exit (hiff.2 hz)), hf.before⟩, h1, ?_, h3⟩
  simp only [hiff] at h2
  exact h2

/-- Over the middle of the leg along the equator from 0° to 1°, in range for the second and third quarter. -/
theorem middle : OneStay 1 1 (R * (2 * sin (π / 1440))) (eq 0) (eq 1) (eq (1 / 2)) (π / 720) (3 * π / 720) := by
  have hpi := pi_pos
  have hpi3 := pi_gt_three
  have hpi4 := pi_lt_four
  have hang := angle_eq 0 1 (by norm_num) (by norm_num)
  have e0 : (1 : ℝ) / 2 = π / 360 * 180 / π := by field_simp; norm_num
  refine ⟨rfl, ?_, .inl ?_, fun ψ h0 h1 => ?_⟩
  · rw [hang, max_eq_left (by positivity), min_eq_left (by linarith), show R = 6378137 from rfl]; linarith
  · rw [hang]; norm_num; linarith
  · rw [hang] at h1
    norm_num at h1
    have hz : (eq 0).alt * 1 = 0 := by simp [eq]
    rw [hz, mul_one, e0, degree_range]
    have hs : |sin ((ψ - π / 360) / 2)| = sin (|ψ - π / 360| / 2) := by
      rcases abs_cases (ψ - π / 360) with ⟨q1, q2⟩ | ⟨q1, q2⟩
      · rw [q1, abs_of_nonneg (sin_nonneg_of_nonneg_of_le_pi (by linarith) (by linarith))]
      · rw [q1, neg_div, sin_neg, abs_of_nonpos (sin_nonpos_of_nonpos_of_neg_pi_le (by linarith) (by linarith))]
    have hb : |ψ - π / 360| ≤ 1 / 10 := abs_le.2 ⟨by linarith, by linarith⟩
    rw [hs, mul_le_mul_iff_right₀ R_pos, mul_le_mul_iff_right₀ two_pos, strictMonoOn_sin.le_iff_le ⟨by linarith [abs_nonneg (ψ - π / 360)], by linarith⟩ ⟨by linarith, by linarith⟩]
    constructor
    · intro h
      have := abs_le.1 (show |ψ - π / 360| ≤ π / 720 by linarith)
      constructor <;> linarith [this.1, this.2]
    · rintro ⟨q1, q2⟩
      have : |ψ - π / 360| ≤ π / 720 := abs_le.2 ⟨by linarith, by linarith⟩
      linarith

theorem middle_answers : ∃ ans, subdivide 1 1 (eq 0) (eq 1) 10 (eq (1 / 2)) (R * (2 * sin (π / 1440))) = .ok ans := by
  have ha : angleOf (eq 0) (eq 1) = (1 - 0) * π / 180 := angle_eq 0 1 (by norm_num) (by norm_num)
  have hp := pi_gt_three
  have hp4 := pi_lt_four
  refine c72_answers_partial 1 1 10 _ (eq 0) (eq 1) (eq (1 / 2)) (by norm_num) (by rw [mul_one]; exact mul_nonneg R_pos.le (mul_nonneg two_pos.le (sin_nonneg_of_nonneg_of_le_pi (by linarith) (by linarith)))) rfl ?_ ?_ (.inl fun ψ hψ => ?_) (.inl fun ψ hψ => ?_)
  · rw [ha, show R = 6378137 from rfl]; norm_num; linarith
  · rw [ha]; norm_num; linarith
  · rw [ha] at hψ
    rw [degree_travel]
    exact cos_pos_of_mem_Ioo ⟨by linarith [hψ.1], by linarith [hψ.2]⟩
  · rw [ha] at hψ
    rw [degree_travel]
    show cos (ψ + π / 2) ≤ 0
    rw [cos_add_pi_div_two]
    have := sin_nonneg_of_nonneg_of_le_pi hψ.1 (by linarith [hψ.2])
    linarith

/-- 10 m/s: the entry is told after 2783 s, the exit after 8344 s. -/
example (ops : List (Op ℝ Geo)) (hops : ∀ o ∈ ops, Foreign 1 7 o) :
    let I := subI 1 1 (fun _ => eq (1 / 2)) fun _ => R * (2 * sin (π / 1440))
    ∃ a b new, 2782 ≤ a ∧ a ≤ 2789 ∧ 8343 ≤ b ∧ b ≤ 8350 ∧ told (run I (step I (alone I) (.start 1 10 [eq 0, eq 1])).1 ops) 1 7 = new ∧
      Stays a b True (run I (step I (alone I) (.start 1 10 [eq 0, eq 1])).1 ops).now new := by
  intro I
  have ha : angleOf (eq 0) (eq 1) = (1 - 0) * π / 180 := angle_eq 0 1 (by norm_num) (by norm_num)
  have hp := pi_gt_d4
  have hp4 := pi_lt_d4
  have hC : angleOf (eq 0) (eq 1) ≤ π - 1 / 10 ^ 6 := by rw [ha]; norm_num at hp hp4 ⊢; linarith
  obtain ⟨ans, h⟩ := middle_answers
  obtain ⟨x, y, rfl, hf⟩ := stay_answer one_pos one_pos (by norm_num) hC middle h
  have hI : I (eq 0) (eq 1) 10 7 = some ⟨[⟨kindOf x.kind, x.time⟩, ⟨kindOf y.kind, y.time⟩], R * angleOf (eq 0) (eq 1) / (1 * 10)⟩ := by
    show legOf (subdivide 1 1 (eq 0) (eq 1) 10 (eq (1 / 2)) _) = _
    rw [h]; rfl
  have e := alone_eq I
  obtain ⟨a, b, new, -, g1, g2, g34, g5, g6, -⟩ := c43_sampled_stay_partial (k := 1) (ka := 1) (v := 10) one_pos one_pos (by norm_num) (fun _ => eq (1 / 2)) _ 0 _ [.addSensor 7] (alone I) rfl 1 7
    (eq 0) (eq 1) (by rw [e]; rfl) (by rw [e]; simp) (by rw [e]; intro p hp; simp [St.init] at hp) (by rw [e]; simp [St.init, St.inView])
    (alone_start I 10 _ _ _ _ _ hI (.inr (by rw [hf.kind₁, if_neg (by linarith)]; rfl)) (.inl (by rw [hf.kind₂, if_neg (by rw [ha]; linarith)]; rfl))) hC middle ops hops
  have hnow : (alone I).now = 0 := by rw [e]; rfl
  have htold : told (alone I) 1 7 = [] := by rw [e]; rfl
  rw [htold, List.nil_append] at g5
  have hlt : 3 * π / 720 < angleOf (eq 0) (eq 1) := by rw [ha]; linarith
  obtain ⟨g3, g4⟩ := g34 hlt
  simp only [hlt] at g6
  rw [hnow, zero_add, zero_add] at g6
  rw [max_eq_left (by positivity)] at g1 g2
  rw [show R = 6378137 from rfl] at g1 g2 g3 g4
  norm_num at hp hp4 g1 g2 g3 g4
  exact ⟨a, b, new, by linarith, by linarith, by linarith, by linarith, g5, g6⟩

/-- In range from the start to the end: the entry is told at once, and no exit. -/
example (ops : List (Op ℝ Geo)) (hops : ∀ o ∈ ops, Foreign 1 7 o) :
    let I := subI 1 1 (fun _ => eq 0) fun _ => 3e8
    ∃ new, told (run I (step I (alone I) (.start 1 10 [eq 0, eq 1])).1 ops) 1 7 = new ∧
      (new = [] ∨ new = [(0, true)]) ∧ (0 < (run I (step I (alone I) (.start 1 10 [eq 0, eq 1])).1 ops).now → new = [(0, true)]) := by
  intro I
  have ha : angleOf (eq 0) (eq 1) = (1 - 0) * π / 180 := angle_eq 0 1 (by norm_num) (by norm_num)
  have hp := pi_gt_three
  have hp4 := pi_lt_four
  have e := alone_eq I
  have hst : OneStay 1 1 3e8 (eq 0) (eq 1) (eq 0) (-1) 4 := by
    refine ⟨rfl, ?_, .inr ?_, fun ψ h0 h1 => ⟨fun _ => ⟨by linarith, ?_⟩, fun _ => ?_⟩⟩
    · rw [ha, max_eq_right (by norm_num), min_eq_right (by linarith), show R = 6378137 from rfl]; linarith
    · rw [ha]; norm_num; linarith
    · rw [ha] at h1; norm_num at h1; linarith
    · rw [mul_one]
      refine sphere_near 1 (eq 0) _ _ ?_ (by simp [eq]) (by simp [eq])
      rw [degree_travel]
      simp [EuclideanSpace.norm_eq, Fin.sum_univ_three]
  obtain ⟨a, b, new, h1, -, -, -, h2, h3, -⟩ := c43_sampled_stay_partial (k := 1) (ka := 1) (v := 10) one_pos one_pos (by norm_num) (fun _ => eq 0) (fun _ => 3e8) 0 _ [.addSensor 7] (alone I) rfl 1 7
    (eq 0) (eq 1) (by rw [e]; rfl) (by rw [e]; simp) (by rw [e]; intro p hp; simp [St.init] at hp) (by rw [e]; simp [St.init]) east_ok (by rw [ha]; norm_num; linarith) hst ops hops
  have hnow : (alone I).now = 0 := by rw [e]; rfl
  have htold : told (alone I) 1 7 = [] := by rw [e]; rfl
  rw [htold, List.nil_append] at h2
  have hn : ¬ (4 : ℝ) < angleOf (eq 0) (eq 1) := by rw [ha]; norm_num; linarith
  rw [hnow, zero_add, h1 (by norm_num)] at h3
  have ho := h3.only
  rw [if_neg hn] at ho
  have hcase : new = [] ∨ new = [(0, true)] := by
    obtain ⟨l, hl⟩ := ho
    rcases new with _ | ⟨x, new⟩
    · exact .inl rfl
    · simp only [List.cons_append, List.cons.injEq, List.append_eq_nil_iff] at hl
      exact .inr (by rw [hl.1, hl.2.1])
  refine ⟨new, h2, hcase, fun hc => ?_⟩
  rcases hcase with rfl | h
  · have := h3.entered hc; simp at this
  · exact h

end Verif.Queued
