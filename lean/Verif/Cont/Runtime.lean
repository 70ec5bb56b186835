import Verif.Cont.Props

/-!
# C09: a connection lasts for the time asked for
-/

namespace Verif.Cont

/-- Why a connection of `id`, made at `t` for the time `d`, may have ended at `e`: the time is over, somebody
cancelled it (`c`), or the container told it at `e` that it is empty/full. -/
def Why (id : Nat) (t : Rat) (d : Option Rat) (c : Prop) (notes : List Note) (e : Rat) : Prop :=
  d = some (e - t) ∨ c ∨ ∃ n ∈ notes, n.id = id ∧ n.time = e

/-- The connections of `id`. -/
def mine (id : Nat) (ss : List Sess) : List Sess := ss.filter (fun x => decide (x.id = id))

/-- What is known of the user `id` asked for at `t` with rate `r` and time `d`. -/
structure J (id : Nat) (t r : Rat) (d : Option Rat) (c : Prop) (s : St) : Prop where
  nid : id < s.nextId
  ss : ∀ x ∈ s.sessions, x.id = id → x.rate = r ∧ x.start = t ∧
    (x.stop = none → s.uprocs.get? id = some ⟨r, d, true, d.map (t + ·)⟩) ∧
    ∀ e, x.stop = some e → (∀ dd, d = some dd → e ≤ t + dd) ∧ Why id t d c s.notes e
  up : ∀ p, s.uprocs.get? id = some p →
    (p = ⟨r, d, false, none⟩ ∧ U.initUser id ∈ s.urgent ∧ s.now = t ∧ mine id s.sessions = []) ∨
    (p = ⟨r, d, true, d.map (t + ·)⟩ ∧ (∀ dd, d = some dd → s.now ≤ t + dd) ∧ (mine id s.sessions).length = 1)
  gone : s.uprocs.get? id = none → (mine id s.sessions).length = 1
  stop : U.intUser id .stop ∈ s.urgent → c

theorem closeSess_none (R : Nat → Bool) (t : Rat) (ss : List Sess) (h : ∀ i, R i = false) : closeSess R t ss = ss := by
  unfold closeSess
  conv_rhs => rw [← List.map_id ss]
  apply List.map_congr_left
  intro x _
  simp [h]

theorem mine_close (id : Nat) (R : Nat → Bool) (t : Rat) (ss : List Sess) :
    mine id (closeSess R t ss) = closeSess R t (mine id ss) := by
  induction ss with
  | nil => rfl
  | cons x ss ih =>
    have hid : (if R x.id = true ∧ x.stop = none then { x with stop := some t } else x).id = x.id := by
      split <;> rfl
    simp only [mine, closeSess, List.map_cons, List.filter_cons, hid] at ih ⊢
    split
    · rw [List.map_cons, ih]
    · exact ih

theorem mine_append (id : Nat) (ss : List Sess) (x : Sess) :
    mine id (ss ++ [x]) = mine id ss ++ if x.id = id then [x] else [] := by
  simp only [mine, List.filter_append]
  congr 1
  by_cases h : x.id = id <;> simp [h]

theorem mine_nil {id : Nat} {ss : List Sess} (h : mine id ss = []) : ∀ x ∈ ss, x.id ≠ id := by
  intro x hx he
  have : x ∈ mine id ss := List.mem_filter.mpr ⟨hx, by simpa using he⟩
  rw [h] at this; cases this

variable {id : Nat} {t r : Rat} {d : Option Rat} {c : Prop}

/-- Every move but the start of a process and the passing of time is of this form. -/
theorem J.upd {s s' : St} (h : J id t r d c s) (R : Nat → Bool) (hn : s.nextId ≤ s'.nextId)
    (hs : s'.sessions = closeSess R s.now s.sessions) (hno : ∀ n ∈ s.notes, n ∈ s'.notes) (hnow : s'.now = s.now)
    (hi : U.initUser id ∈ s.urgent → U.initUser id ∈ s'.urgent)
    (hst : U.intUser id .stop ∈ s'.urgent → U.intUser id .stop ∈ s.urgent ∨ c)
    (hu : s'.uprocs.get? id = s.uprocs.get? id ∨
      s'.uprocs.get? id = none ∧ (∃ p, s.uprocs.get? id = some p ∧ p.started = true) ∧
        (R id = true ∨ ∀ x ∈ s.sessions, x.id = id → x.stop ≠ none))
    (hR : R id = true → (∃ x ∈ s.sessions, x.id = id ∧ x.stop = none) → Why id t d c s'.notes s.now) :
    J id t r d c s' := by
  have hl : (mine id s'.sessions).length = (mine id s.sessions).length := by
    rw [hs, mine_close]; simp [closeSess]
  have hw : ∀ e, Why id t d c s.notes e → Why id t d c s'.notes e := by
    rintro e (h | h | ⟨n, h1, h2⟩)
    · exact Or.inl h
    · exact Or.inr (Or.inl h)
    · exact Or.inr (Or.inr ⟨n, hno n h1, h2⟩)
  refine ⟨Nat.lt_of_lt_of_le h.nid hn, ?_, ?_, ?_, ?_⟩
  · intro y hy hyi
    rw [hs] at hy
    obtain ⟨x, hx, rfl⟩ := List.mem_map.mp hy
    by_cases hc : R x.id = true ∧ x.stop = none
    · rw [if_pos hc] at hyi ⊢
      simp only at hyi ⊢
      obtain ⟨a1, a2, a3, a4⟩ := h.ss x hx hyi
      refine ⟨a1, a2, fun h => by simp at h, ?_⟩
      intro e he
      have he : s.now = e := by simpa using he
      subst he
      refine ⟨?_, hR (hyi ▸ hc.1) ⟨x, hx, hyi, hc.2⟩⟩
      rcases h.up _ (a3 hc.2) with ⟨h1, _⟩ | ⟨_, h2, _⟩
      · cases h1
      · exact h2
    · rw [if_neg hc] at hyi ⊢
      obtain ⟨a1, a2, a3, a4⟩ := h.ss x hx hyi
      refine ⟨a1, a2, ?_, fun e he => ⟨(a4 e he).1, hw e (a4 e he).2⟩⟩
      intro hxs
      rcases hu with hu | ⟨_, _, hu | hu⟩
      · rw [hu]; exact a3 hxs
      · exact absurd ⟨hyi ▸ hu, hxs⟩ hc
      · exact absurd hxs (hu x hx hyi)
  · intro p hp
    rcases hu with hu | ⟨hu, _⟩
    · rw [hu] at hp
      rcases h.up p hp with ⟨a1, a2, a3, a4⟩ | ⟨a1, a2, a3⟩
      · refine Or.inl ⟨a1, hi a2, hnow.trans a3, ?_⟩
        rw [hs, mine_close, a4]; rfl
      · exact Or.inr ⟨a1, by rw [hnow]; exact a2, hl.trans a3⟩
    · rw [hu] at hp; cases hp
  · intro hp
    rw [hl]
    rcases hu with hu | ⟨_, ⟨p, h1, h2⟩, _⟩
    · exact h.gone (hu ▸ hp)
    · rcases h.up p h1 with ⟨a1, _⟩ | ⟨_, _, a3⟩
      · rw [a1] at h2; cases h2
      · exact a3
  · intro hh
    rcases hst hh with hh | hh
    · exact h.stop hh
    · exact hh

/-- What `_add_rate` leaves alone. -/
structure Same (s s' : St) : Prop where
  sess : s'.sessions = s.sessions
  notes : s'.notes = s.notes
  ups : s'.uprocs = s.uprocs
  now : s'.now = s.now
  nid : s.nextId ≤ s'.nextId
  urg : ∀ u, u ∈ s.urgent → u ∈ s'.urgent
  ints : ∀ i z, U.intUser i z ∈ s'.urgent → U.intUser i z ∈ s.urgent

theorem Same.trans {a b e : St} (h : Same a b) (g : Same b e) : Same a e :=
  ⟨g.sess.trans h.sess, g.notes.trans h.notes, g.ups.trans h.ups, g.now.trans h.now, Nat.le_trans h.nid g.nid,
    fun u hu => g.urg u (h.urg u hu), fun i z hz => h.ints i z (g.ints i z hz)⟩

theorem setLevel_same (s : St) : Same s (setLevel s) := by
  have hb : Same s (setLevelBase s) := by
    unfold setLevelBase; split <;> exact ⟨rfl, rfl, rfl, rfl, Nat.le_refl _, fun _ h => h, fun _ _ h => h⟩
  unfold setLevel; simp only; split
  · exact hb
  · exact hb.trans ⟨rfl, rfl, rfl, rfl, Nat.le_refl _, fun _ h => h, fun _ _ h => h⟩

theorem addRate'_same (s : St) (e : Rat) : Same s (addRate' s e) := by
  unfold addRate'; simp only
  split
  · exact (setLevel_same s).trans ⟨rfl, rfl, rfl, rfl, Nat.le_refl _, fun _ h => h, fun _ _ h => h⟩
  · refine (setLevel_same s).trans ⟨rfl, rfl, rfl, rfl, Nat.le_succ _, fun _ h => List.mem_append_left _ h, ?_⟩
    intro i z h
    rcases List.mem_append.mp h with h | h
    · exact h
    · simp at h

theorem addRate_same (s : St) (e : Rat) (b : Bool) : Same s (addRate s e b) := by
  unfold addRate
  split
  · split
    · split
      · refine Same.trans ?_ (addRate'_same _ _)
        refine ⟨rfl, rfl, rfl, rfl, Nat.le_refl _, fun _ h => List.mem_append_left _ h, ?_⟩
        intro i z h
        rcases List.mem_append.mp h with h | h
        · exact h
        · simp at h
      · exact ⟨rfl, rfl, rfl, rfl, Nat.le_refl _, fun _ h => h, fun _ _ h => h⟩
    · exact addRate'_same _ _
  · exact addRate'_same _ _

theorem J.same {s s' : St} (h : J id t r d c s) (hs : Same s s') : J id t r d c s' :=
  h.upd (fun _ => false) hs.nid (by rw [closeSess_none _ _ _ (fun _ => rfl)]; exact hs.sess)
    (fun n hn => by rw [hs.notes]; exact hn) hs.now (hs.urg _) (fun h => Or.inl (hs.ints _ _ h))
    (Or.inl (by rw [hs.ups])) (fun h => by cases h)

/-- Removing a user whose process has just ended. -/
theorem J.remove {s : St} (h : J id t r d c s) (i : Nat) (q : Rat) (hc : (removeUser { s with uprocs := s.uprocs.del i } i q).crash = none)
    (hst : i = id → ∃ p, s.uprocs.get? id = some p ∧ p.started = true)
    (hw : i = id → Why id t d c s.notes s.now) :
    J id t r d c (removeUser { s with uprocs := s.uprocs.del i } i q) := by
  unfold removeUser at hc ⊢
  split at hc
  case isFalse => cases hc
  case isTrue hm =>
    have hs := addRate_same { s with
        users := dropIds (fun j => decide (j = i)) s.users
        sessions := closeSess (fun j => decide (j = i)) s.now s.sessions
        uprocs := s.uprocs.del i } (-1 * q) true
    rw [if_pos hm]
    refine J.same ?_ hs
    refine h.upd (fun j => decide (j = i)) (Nat.le_refl _) rfl (fun _ h => h) rfl (fun h => h) (fun h => Or.inl h) ?_ ?_
    · by_cases e : i = id
      · subst e
        exact Or.inr ⟨Dict.get?_del_self _ _, hst rfl, Or.inl (by simp)⟩
      · exact Or.inl (Dict.get?_del_ne _ e)
    · intro hR _
      exact hw (by simpa using Eq.symm (a := id) (b := i) (by simpa using hR))

/-- Notifying and dropping users. -/
theorem J.drop {s : St} (h : J id t r d c s) (who : List (Nat × Rat)) (z : Cause) (hz : z ≠ .stop) :
    J id t r d c (dropUsers (notify s who z) who) := by
  have hint : U.intUser id .stop ∈ (notify s who z).urgent → U.intUser id .stop ∈ s.urgent := by
    intro h
    rcases List.mem_append.mp h with h | h
    · exact h
    · obtain ⟨p, _, h⟩ := List.mem_map.mp h
      injection h with _ h
      exact absurd h hz
  unfold dropUsers
  split
  · refine h.upd (fun _ => false) (Nat.le_refl _) (closeSess_none _ _ _ (fun _ => rfl)).symm
      (fun n hn => List.mem_append_left _ hn) rfl (fun h => List.mem_append_left _ h) (fun h => Or.inl (hint h)) (Or.inl rfl)
      (fun h => by cases h)
  · refine J.same ?_ (addRate_same _ _ _)
    refine h.upd (fun i => decide (i ∈ who.map (·.1))) (Nat.le_refl _) rfl (fun n hn => List.mem_append_left _ hn) rfl
      (fun h => List.mem_append_left _ h) (fun h => Or.inl (hint h)) (Or.inl rfl) ?_
    intro hR _
    obtain ⟨p, hp, he⟩ := List.mem_map.mp (of_decide_eq_true hR)
    exact Or.inr (Or.inr ⟨⟨s.now, p.1, z, s.level⟩, List.mem_append_right _ (List.mem_map.mpr ⟨p, hp, rfl⟩), he, rfl⟩)

theorem J.finish {s : St} (h : J id t r d c s) (k : Nat) : (finishCheck s k).crash = none → J id t r d c (finishCheck s k) := by
  have h1 : J id t r d c (setLevel { s with checks := s.checks.del k }) :=
    (J.same h (s' := { s with checks := s.checks.del k })
      ⟨rfl, rfl, rfl, rfl, Nat.le_refl _, fun _ h => h, fun _ _ h => h⟩).same (setLevel_same _)
  unfold finishCheck
  simp only
  generalize setLevel { s with checks := s.checks.del k } = s1 at *
  split
  · unfold checkEmpty
    split
    · exact fun _ => h1
    · simp only
      split
      · split
        · intro hc; cases hc
        · split
          · intro hc; cases hc
          · exact fun _ => h1.drop _ .empty (by simp)
      · intro hc; cases hc
  · split
    · unfold checkFull
      split
      · exact fun _ => h1
      · simp only
        split
        · split
          · intro hc; cases hc
          · split
            · intro hc; cases hc
            · exact fun _ => h1.drop _ .full (by simp)
        · intro hc; cases hc
    · exact fun _ => h1

/-- Losing an urgent event other than the start of `id`. -/
theorem J.pop {s : St} (h : J id t r d c s) {u : U} {q : List U} (hq : s.urgent = u :: q) (hu : u ≠ .initUser id) :
    J id t r d c { s with urgent := q } := by
  refine h.upd (fun _ => false) (Nat.le_refl _) (closeSess_none _ _ _ (fun _ => rfl)).symm (fun _ h => h) rfl ?_ ?_ (Or.inl rfl)
    (fun h => by cases h)
  · intro hi
    rw [hq] at hi
    rcases List.mem_cons.mp hi with hi | hi
    · exact absurd hi.symm hu
    · exact hi
  · intro hi
    left; rw [hq]; exact List.mem_cons_of_mem _ hi

theorem J.step {l0 t0 : Rat} {s : St} {op : Op} (hi : Inv l0 t0 s) (h : s.crash = none → J id t r d c s)
    (hop : op = .cancel id → c) : (Cont.step s op).crash = none → J id t r d c (Cont.step s op) := by
  unfold Cont.step
  by_cases hcr : s.crash = none
  swap
  · rw [if_pos hcr]; exact h
  rw [if_neg (by simp [hcr])]
  have h := h hcr
  cases op with
  | newUser r' rt =>
    simp only [doNew]; split
    · exact fun _ => h
    · intro _
      refine h.upd (fun _ => false) (Nat.le_succ _) (closeSess_none _ _ _ (fun _ => rfl)).symm (fun _ h => h) rfl
        (fun h => List.mem_append_left _ h) ?_ (Or.inl (Dict.get?_set_ne _ _ (Nat.ne_of_gt h.nid))) (fun h => by cases h)
      intro hh
      rcases List.mem_append.mp hh with hh | hh
      · exact Or.inl hh
      · simp at hh
  | cancel i =>
    simp only [doCancel]; split
    · intro _
      refine h.upd (fun _ => false) (Nat.le_refl _) (closeSess_none _ _ _ (fun _ => rfl)).symm (fun _ h => h) rfl
        (fun h => List.mem_append_left _ h) ?_ (Or.inl rfl) (fun h => by cases h)
      intro hh
      rcases List.mem_append.mp hh with hh | hh
      · exact Or.inl hh
      · right
        simp only [List.mem_singleton, U.intUser.injEq, and_true] at hh
        exact hop (by rw [hh])
    · exact fun _ => h
  | urgent =>
    simp only [doUrgent]
    split
    · exact fun _ => h
    · rename_i u q hq
      cases u with
      | initUser i =>
        simp only
        unfold beginUser
        by_cases e : i = id
        · subst e
          split
          · rename_i hp
            -- the process is over already
            intro _
            refine ⟨h.nid, h.ss, ?_, h.gone, fun hh => h.stop (by rw [hq]; exact List.mem_cons_of_mem _ hh)⟩
            intro p hp'
            simp only at hp hp'
            rw [hp] at hp'; cases hp'
          · rename_i p hp
            simp only at hp
            rcases h.up p hp with ⟨a1, a2, a3, a4⟩ | ⟨a1, a2, a3⟩
            · subst a1
              simp only [Bool.false_eq_true, ↓reduceIte]
              have hs := addRate_same { s with
                  users := s.users ++ [(i, r)]
                  sessions := s.sessions ++ [⟨i, r, s.now, none⟩]
                  urgent := q } r true
              have key : ∀ x : UProc, x = ⟨r, d, true, d.map (t + ·)⟩ → (∀ dd, d = some dd → 0 ≤ dd) →
                  J i t r d c { addUser { s with urgent := q } i r with
                    uprocs := (addUser { s with urgent := q } i r).uprocs.set i x } := by
                intro x hx hdd
                subst hx
                have hm : mine i (addUser { s with urgent := q } i r).sessions = [⟨i, r, s.now, none⟩] := by
                  show mine i (addRate _ r true).sessions = _
                  rw [hs.sess]
                  show mine i (s.sessions ++ _) = _
                  rw [mine_append, a4]; simp
                have hnow : (addUser { s with urgent := q } i r).now = s.now := hs.now
                refine ⟨Nat.lt_of_lt_of_le h.nid hs.nid, ?_, ?_, ?_, ?_⟩
                · intro y hy hyi
                  have hy' : y ∈ mine i (addUser { s with urgent := q } i r).sessions :=
                    List.mem_filter.mpr ⟨hy, by simpa using hyi⟩
                  rw [hm] at hy'
                  rw [List.mem_singleton] at hy'
                  subst hy'
                  exact ⟨rfl, a3, fun _ => Dict.get?_set_self _ _ _, fun e he => by simp at he⟩
                · intro p' hp'
                  simp only [Dict.get?_set_self, Option.some.injEq] at hp'
                  refine Or.inr ⟨hp'.symm, ?_, ?_⟩
                  · intro dd hd
                    show (addUser { s with urgent := q } i r).now ≤ _
                    rw [hnow, a3]
                    have := hdd dd hd
                    linarith
                  · show (mine i (addUser { s with urgent := q } i r).sessions).length = 1
                    rw [hm]; rfl
                · intro hp'
                  simp only [Dict.get?_set_self] at hp'
                  cases hp'
                · intro hh
                  exact h.stop (by rw [hq]; exact List.mem_cons_of_mem _ (hs.ints _ _ hh))
              have hnow : (addUser { s with urgent := q } i r).now = t := hs.now.trans a3
              split
              · rename_i hc
                intro hc'
                exact absurd hc' hc
              · split
                · intro _
                  exact key _ (by simp) (by simp)
                · rename_i rt
                  split
                  · intro hc; cases hc
                  · rename_i hneg
                    intro _
                    refine key _ (by simp [hnow]) ?_
                    intro dd hd
                    injection hd with hd
                    subst hd
                    exact not_lt.mp hneg
            · subst a1
              simp only [↓reduceIte]
              intro _
              refine ⟨h.nid, h.ss, ?_, h.gone, fun hh => h.stop (by rw [hq]; exact List.mem_cons_of_mem _ hh)⟩
              intro p' hp'
              simp only at hp'
              rw [hp] at hp'
              injection hp' with hp'
              exact Or.inr ⟨hp'.symm, a2, a3⟩
        · have hp := h.pop hq (by simpa using e)
          split
          · exact fun _ => hp
          · split
            · exact fun _ => hp
            · rename_i p _ _
              have key : J id t r d c (addUser { s with urgent := q } i p.rate) := by
                refine J.same ?_ (addRate_same _ _ _)
                have hm : mine id (s.sessions ++ [⟨i, p.rate, s.now, none⟩]) = mine id s.sessions := by
                  rw [mine_append]; simp [e]
                refine ⟨hp.nid, ?_, ?_, ?_, hp.stop⟩
                · intro x hx hxi
                  rcases List.mem_append.mp hx with hx | hx
                  · exact hp.ss x hx hxi
                  · rw [List.mem_singleton] at hx
                    subst hx
                    exact absurd hxi e
                · intro p' hp'
                  rcases hp.up p' hp' with ⟨b1, b2, b3, b4⟩ | ⟨b1, b2, b3⟩
                  · exact Or.inl ⟨b1, b2, b3, hm.trans b4⟩
                  · exact Or.inr ⟨b1, b2, (congrArg _ hm).trans b3⟩
                · intro hp'
                  exact (congrArg _ hm).trans (hp.gone hp')
              have set : ∀ x : UProc, J id t r d c { addUser { s with urgent := q } i p.rate with
                  uprocs := (addUser { s with urgent := q } i p.rate).uprocs.set i x } := fun x =>
                key.upd (fun _ => false) (Nat.le_refl _) (closeSess_none _ _ _ (fun _ => rfl)).symm (fun _ h => h) rfl
                  (fun h => h) (fun h => Or.inl h) (Or.inl (Dict.get?_set_ne _ _ e)) (fun h => by cases h)
              simp only
              split
              · exact fun _ => key
              · split
                · exact fun _ => set _
                · split
                  · intro hc; cases hc
                  · exact fun _ => set _
      | intUser i z =>
        have hp := h.pop hq (by simp)
        have hnote := (hi.b hcr).1.note i z (by rw [hq]; exact List.mem_cons_self)
        simp only
        unfold intUser
        split
        · exact fun _ => hp
        · rename_i p hpi
          simp only at hpi ⊢
          have started : z ≠ .stop → p.started = true ∧ i ∉ s.users.map (·.1) := by
            intro hz
            rcases hnote.2 with hn | ⟨hn1, hn2⟩
            · exact absurd hn hz
            · exact ⟨(hn2 p hpi).1, hn1⟩
          split
          · rename_i hz
            intro _
            have hz' : z ≠ .stop := by rw [hz]; exact stopCause_ne_stop _
            refine hp.upd (fun _ => false) (Nat.le_refl _) (closeSess_none _ _ _ (fun _ => rfl)).symm (fun _ h => h) rfl
              (fun h => h) (fun h => Or.inl h) ?_ (fun h => by cases h)
            by_cases e : i = id
            · subst e
              refine Or.inr ⟨Dict.get?_del_self _ _, ⟨p, hpi, (started hz').1⟩, Or.inr ?_⟩
              intro x hx hxi hxs
              refine (started hz').2 ?_
              rw [← hi.a.users]
              exact List.mem_map.mpr ⟨(x.id, x.rate), List.mem_map.mpr ⟨x, List.mem_filter.mpr ⟨hx, by simp [hxs]⟩, rfl⟩, hxi⟩
            · exact Or.inl (Dict.get?_del_ne _ e)
          · split
            · rename_i hz
              intro hc
              have hids : i ∈ s.users.map (·.1) := by
                unfold removeUser at hc
                split at hc
                · assumption
                · cases hc
              refine hp.remove i p.rate hc ?_ ?_
              · intro e
                subst e
                obtain ⟨⟨i', r'⟩, h1, h2⟩ := List.mem_map.mp hids
                simp only at h2
                subst h2
                obtain ⟨q', h3, h4, _⟩ := (hi.b hcr).1.alive _ h1
                exact ⟨q', h3, h4⟩
              · intro e
                subst e; subst hz
                exact Or.inr (Or.inl (h.stop (by rw [hq]; exact List.mem_cons_self)))
            · intro hc; cases hc
      | initCheck k =>
        have hp := h.pop hq (by simp)
        simp only
        unfold beginCheck
        split
        · exact fun _ => hp
        · split
          · exact fun _ => hp.same ⟨rfl, rfl, rfl, rfl, Nat.le_refl _, fun _ h => h, fun _ _ h => h⟩
          · simp only
            intro hc
            by_cases hw : ((if s.rate > 0 then s.cap else 0) - readLevel { s with urgent := q }) / s.rate < 0
            · rw [if_pos hw] at hc; simp at hc
            · rw [if_neg hw]; exact hp.same ⟨rfl, rfl, rfl, rfl, Nat.le_refl _, fun _ h => h, fun _ _ h => h⟩
      | intCheck k =>
        have hp := h.pop hq (by simp)
        simp only
        split
        · exact hp.finish _
        · exact fun _ => hp
  | fireUser i =>
    simp only [doFireUser]
    split
    · exact fun _ => h
    · rename_i p hpi
      split
      · rename_i hd
        intro hc
        refine h.remove i p.rate hc ?_ ?_
        · intro e
          subst e
          rcases h.up p hpi with ⟨a1, _⟩ | ⟨a1, _⟩
          · rw [a1] at hd; cases hd.2
          · exact ⟨p, hpi, by rw [a1]⟩
        · intro e
          subst e
          left
          rcases h.up p hpi with ⟨a1, _⟩ | ⟨a1, _⟩
          · rw [a1] at hd; cases hd.2
          · have hd2 := hd.2
            rw [a1] at hd2
            cases hdd : d with
            | none => rw [hdd] at hd2; cases hd2
            | some dd =>
              rw [hdd] at hd2
              simp only [Option.map_some, Option.some.injEq] at hd2
              rw [← hd2]
              congr 1
              ring
      · exact fun _ => h
  | fireCheck k =>
    simp only [doFireCheck]
    split
    · exact h.finish _
    · exact fun _ => h
  | advance t' =>
    simp only [doAdvance]
    split
    · rename_i hc
      intro _
      simp only [canAdvance, Bool.and_eq_true, List.all_eq_true, decide_eq_true_eq] at hc
      obtain ⟨⟨⟨c1, c2⟩, c3⟩, _⟩ := hc
      refine ⟨h.nid, h.ss, ?_, h.gone, h.stop⟩
      intro p hp
      rcases h.up p hp with ⟨_, a2, _⟩ | ⟨a1, a2, a3⟩
      · rw [List.isEmpty_iff.mp c2] at a2; cases a2
      · refine Or.inr ⟨a1, ?_, a3⟩
        intro dd hd
        have := c3 _ (Dict.mem_of_get? hp)
        rw [a1, hd] at this
        simpa using this
    · exact fun _ => h

theorem J.new {l0 t0 : Rat} {s : St} (hi : Inv l0 t0 s) (hc : s.crash = none) (r : Rat) (d : Option Rat) (hr : r ≠ 0)
    (c : Prop) (hss : ∀ x ∈ s.sessions, x.id < s.nextId) : J s.nextId s.now r d c (Cont.step s (.newUser r d)) := by
  unfold Cont.step
  rw [if_neg (by simp [hc])]
  simp only [doNew, if_neg hr]
  have hno : ∀ x ∈ s.sessions, x.id ≠ s.nextId := fun x hx => Nat.ne_of_lt (hss x hx)
  refine ⟨Nat.lt_succ_self _, fun x hx e => absurd e (hno x hx), ?_, ?_, ?_⟩
  · intro p hp
    simp only [Dict.get?_set_self, Option.some.injEq] at hp
    refine Or.inl ⟨hp.symm, List.mem_append_right _ (List.mem_singleton.mpr rfl), rfl, ?_⟩
    exact List.filter_eq_nil_iff.mpr fun x hx => by simpa using hno x hx
  · intro hp
    simp only [Dict.get?_set_self] at hp
    cases hp
  · intro hh
    rcases List.mem_append.mp hh with hh | hh
    · exact absurd ((hi.b hc).1.note _ _ hh).1 (Nat.lt_irrefl _)
    · simp at hh

/-! ### connections belong to requests already made -/

/-- Connections of `s'` are those of `s`, or of a process of `s`. -/
structure Ids (s s' : St) : Prop where
  nid : s.nextId ≤ s'.nextId
  ids : ∀ y ∈ s'.sessions, (∃ x ∈ s.sessions, x.id = y.id) ∨ ∃ p, s.uprocs.get? y.id = some p

theorem Ids.of_same {s s' s'' : St} (h : Ids s s') (hs : Same s' s'') : Ids s s'' :=
  ⟨Nat.le_trans h.nid hs.nid, by rw [hs.sess]; exact h.ids⟩

theorem Ids.of_eq {s s' : St} (h : s.nextId ≤ s'.nextId) (e : s'.sessions = s.sessions) : Ids s s' :=
  ⟨h, fun y hy => Or.inl ⟨y, e ▸ hy, rfl⟩⟩

theorem Ids.close {s s' s'' : St} (h : Ids s s') (hn : s'.nextId ≤ s''.nextId) (R : Nat → Bool) (t : Rat)
    (e : s''.sessions = closeSess R t s'.sessions) : Ids s s'' := by
  refine ⟨Nat.le_trans h.nid hn, ?_⟩
  intro y hy
  rw [e] at hy
  obtain ⟨x, hx, rfl⟩ := List.mem_map.mp hy
  have hid : (if R x.id = true ∧ x.stop = none then { x with stop := some t } else x).id = x.id := by
    split <;> rfl
  rw [hid]
  exact h.ids x hx

theorem Ids.remove {s s' : St} (h : Ids s s') (i : Nat) (q : Rat) : Ids s (removeUser s' i q) := by
  unfold removeUser
  split
  · refine Ids.of_same ?_ (addRate_same _ _ _)
    exact h.close (Nat.le_refl _) (fun j => decide (j = i)) s'.now rfl
  · exact ⟨h.nid, h.ids⟩

theorem Ids.drop {s s' : St} (h : Ids s s') (who : List (Nat × Rat)) (z : Cause) :
    Ids s (dropUsers (notify s' who z) who) := by
  unfold dropUsers
  split
  · exact ⟨h.nid, h.ids⟩
  · refine Ids.of_same ?_ (addRate_same _ _ _)
    exact h.close (Nat.le_refl _) (fun j => decide (j ∈ who.map (·.1))) s'.now rfl

theorem Ids.finish {s s' : St} (h : Ids s s') (k : Nat) : Ids s (finishCheck s' k) := by
  have h1 : Ids s (setLevel { s' with checks := s'.checks.del k }) :=
    Ids.of_same (s' := { s' with checks := s'.checks.del k }) ⟨h.nid, h.ids⟩ (setLevel_same _)
  unfold finishCheck
  simp only
  generalize setLevel { s' with checks := s'.checks.del k } = s1 at *
  split
  · unfold checkEmpty
    split
    · exact h1
    · simp only
      split
      · split
        · exact ⟨h1.nid, h1.ids⟩
        · split
          · exact ⟨h1.nid, h1.ids⟩
          · exact h1.drop _ .empty
      · exact ⟨h1.nid, h1.ids⟩
  · split
    · unfold checkFull
      split
      · exact h1
      · simp only
        split
        · split
          · exact ⟨h1.nid, h1.ids⟩
          · split
            · exact ⟨h1.nid, h1.ids⟩
            · exact h1.drop _ .full
        · exact ⟨h1.nid, h1.ids⟩
    · exact h1

theorem step_ids (s : St) (op : Op) : Ids s (Cont.step s op) := by
  have h0 : Ids s s := Ids.of_eq (Nat.le_refl _) rfl
  unfold Cont.step
  split
  · exact h0
  · cases op with
    | newUser r d =>
      simp only [doNew]
      split
      · exact h0
      · exact Ids.of_eq (Nat.le_succ _) rfl
    | cancel i => simp only [doCancel]; split <;> exact Ids.of_eq (Nat.le_refl _) rfl
    | urgent =>
      simp only [doUrgent]
      split
      · exact h0
      · rename_i u q hq
        have h1 : Ids s { s with urgent := q } := Ids.of_eq (Nat.le_refl _) rfl
        cases u with
        | initUser i =>
          simp only
          unfold beginUser
          split
          · exact h1
          · split
            · exact h1
            · rename_i p hp _
              have h2 : Ids s (addUser { s with urgent := q } i p.rate) := by
                refine Ids.of_same ?_ (addRate_same _ _ _)
                refine ⟨Nat.le_refl _, ?_⟩
                intro y hy
                rcases List.mem_append.mp hy with hy | hy
                · exact Or.inl ⟨y, hy, rfl⟩
                · rw [List.mem_singleton] at hy
                  subst hy
                  exact Or.inr ⟨p, hp⟩
              simp only
              split
              · exact h2
              · split
                · exact ⟨h2.nid, h2.ids⟩
                · split <;> exact ⟨h2.nid, h2.ids⟩
        | intUser i z =>
          simp only
          unfold intUser
          split
          · exact h1
          · simp only
            split
            · exact ⟨h1.nid, h1.ids⟩
            · split
              · exact Ids.remove (s' := { s with urgent := q, uprocs := s.uprocs.del i }) ⟨h1.nid, h1.ids⟩ _ _
              · exact ⟨h1.nid, h1.ids⟩
        | initCheck k =>
          simp only
          unfold beginCheck
          split
          · exact h1
          · split
            · exact ⟨h1.nid, h1.ids⟩
            · simp only
              by_cases hw : ((if s.rate > 0 then s.cap else 0) - readLevel { s with urgent := q }) / s.rate < 0
              · rw [if_pos hw]
                have := h1.finish k
                exact ⟨this.nid, this.ids⟩
              · rw [if_neg hw]
                exact ⟨h1.nid, h1.ids⟩
        | intCheck k =>
          simp only
          split
          · exact h1.finish k
          · exact h1
    | fireUser i =>
      simp only [doFireUser]
      split
      · exact h0
      · split
        · exact Ids.remove (s' := { s with uprocs := s.uprocs.del i }) ⟨h0.nid, h0.ids⟩ _ _
        · exact h0
    | fireCheck k =>
      simp only [doFireCheck]
      split
      · exact h0.finish k
      · exact h0
    | advance t' => simp only [doAdvance]; split <;> exact Ids.of_eq (Nat.le_refl _) rfl

theorem run_ids {l0 t0 : Rat} (ops : List Op) : ∀ (s : St), Inv l0 t0 s → (∀ x ∈ s.sessions, x.id < s.nextId) →
    ∀ x ∈ (run s ops).sessions, x.id < (run s ops).nextId := by
  induction ops with
  | nil => exact fun _ _ h => h
  | cons op ops ih =>
    intro s hi h
    refine ih _ (step_inv hi op) ?_
    by_cases hc : s.crash = none
    · intro y hy
      have := step_ids s op
      rcases this.ids y hy with ⟨x, hx, e⟩ | ⟨p, hp⟩
      · rw [← e]; exact Nat.lt_of_lt_of_le (h x hx) this.nid
      · exact Nat.lt_of_lt_of_le ((hi.b hc).1.uid _ _ hp).1 this.nid
    · have : Cont.step s op = s := by unfold Cont.step; rw [if_pos hc]
      rw [this]; exact h

/-- **C09 (time).** A user asked for at some time with a rate and, if wanted, a time `d` connects at that instant, once, with that
rate; the connection never lasts longer than `d`; and if it ended, then exactly after `d`, or because it was cancelled, or because the
container told it at that instant that it is empty or full. -/
theorem c09_runtime (cap l0 : Rat) (ee ef : Bool) (t0 : Rat) (h0 : 0 ≤ l0) (h1 : l0 ≤ cap) (pre ops : List Op) (r : Rat)
    (d : Option Rat) (hr : r ≠ 0) :
    let s := after cap l0 ee ef t0 pre
    let s' := after cap l0 ee ef t0 (pre ++ .newUser r d :: ops)
    s'.crash = none →
    (s'.urgent = [] → ∃ x ∈ s'.sessions, x.id = s.nextId) ∧
    (s'.sessions.filter (fun x => decide (x.id = s.nextId))).length ≤ 1 ∧
    ∀ x ∈ s'.sessions, x.id = s.nextId → x.rate = r ∧ x.start = s.now ∧
      (x.stop = none → ∀ dd, d = some dd → s'.now ≤ s.now + dd) ∧
      ∀ e, x.stop = some e → (∀ dd, d = some dd → e ≤ s.now + dd) ∧
        (d = some (e - s.now) ∨ .cancel s.nextId ∈ ops ∨ ∃ n ∈ s'.notes, n.id = s.nextId ∧ n.time = e) := by
  intro s s' hc
  have hrun : s' = run (Cont.step s (.newUser r d)) ops := by
    show run _ _ = _
    unfold run
    rw [List.foldl_append]
    rfl
  have hi : Inv l0 t0 s := run_inv (init_inv cap l0 ee ef t0 h0 h1) pre
  have stay : ∀ (ops : List Op) (s : St), s.crash ≠ none → run s ops = s := by
    intro ops
    induction ops with
    | nil => exact fun _ _ => rfl
    | cons op ops ih =>
      intro s hs
      have : Cont.step s op = s := by unfold Cont.step; rw [if_pos hs]
      show run (Cont.step s op) ops = s
      rw [this]; exact ih s hs
  have hcs : s.crash = none := by
    by_contra hcs
    have : s' = s := by
      rw [hrun]
      have : Cont.step s (.newUser r d) = s := by unfold Cont.step; rw [if_pos hcs]
      rw [this]; exact stay ops s hcs
    exact hcs (this ▸ hc)
  have key : ∀ (l : List Op) (s1 : St), Inv l0 t0 s1 →
      (s1.crash = none → J s.nextId s.now r d (.cancel s.nextId ∈ ops) s1) → (∀ o ∈ l, o ∈ ops) →
      ((run s1 l).crash = none → J s.nextId s.now r d (.cancel s.nextId ∈ ops) (run s1 l)) := by
    intro l
    induction l with
    | nil => exact fun _ _ h _ => h
    | cons o l ih =>
      intro s1 hi1 h hl
      exact ih _ (step_inv hi1 o) (J.step hi1 h (fun e => e ▸ hl o List.mem_cons_self)) (fun o' ho => hl o' (List.mem_cons_of_mem _ ho))
  have hJ := key ops _ (step_inv hi (.newUser r d))
    (fun _ => J.new hi hcs r d hr _ (run_ids pre _ (init_inv cap l0 ee ef t0 h0 h1) (fun x hx => by simp [init] at hx)))
    (fun _ h => h)
  rw [← hrun] at hJ
  have hJ := hJ hc
  refine ⟨?_, ?_, ?_⟩
  · intro hu
    have hone : (mine s.nextId s'.sessions).length = 1 := by
      cases hp : s'.uprocs.get? s.nextId with
      | none => exact hJ.gone hp
      | some p =>
        rcases hJ.up p hp with ⟨_, a, _⟩ | ⟨_, _, a⟩
        · rw [hu] at a; cases a
        · exact a
    obtain ⟨x, hx⟩ := List.length_eq_one_iff.mp hone
    have : x ∈ mine s.nextId s'.sessions := by rw [hx]; exact List.mem_singleton.mpr rfl
    obtain ⟨a, b⟩ := List.mem_filter.mp this
    exact ⟨x, a, by simpa using b⟩
  · show (mine s.nextId s'.sessions).length ≤ 1
    cases hp : s'.uprocs.get? s.nextId with
    | none => exact Nat.le_of_eq (hJ.gone hp)
    | some p =>
      rcases hJ.up p hp with ⟨_, _, _, a⟩ | ⟨_, _, a⟩
      · rw [a]; exact Nat.zero_le _
      · exact Nat.le_of_eq a
  · intro x hx he
    obtain ⟨a1, a2, a3, a4⟩ := hJ.ss x hx he
    refine ⟨a1, a2, ?_, a4⟩
    intro hs dd hd
    rcases hJ.up _ (a3 hs) with ⟨b, _⟩ | ⟨_, b, _⟩
    · cases b
    · exact b dd hd

/-- Three users: one runs its time of 2, one is told at 4 that the container is empty, one is cancelled at 1. -/
example :
    let s := after 10 5 false false 0
      [.newUser 1 (some 2), .newUser (-2) (some 100), .newUser 1 none, .urgent, .urgent, .urgent, .urgent, .urgent, .urgent,
        .urgent, .urgent, .urgent, .advance 1, .cancel 2, .urgent, .urgent, .urgent, .urgent, .advance 2, .fireUser 0, .urgent,
        .urgent, .urgent, .advance 4, .fireCheck 6, .urgent, .urgent]
    s.crash = none ∧ s.sessions.map (fun x => (x.id, x.start, x.stop)) = [(0, 0, some 2), (1, 0, some 4), (2, 0, some 1)] := by
  decide +kernel

end Verif.Cont
