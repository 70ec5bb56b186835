import Verif.Predict.Spec
import Verif.Active.Model
import Mathlib.Tactic.LinearCombination

/-!
# Actors with linear changing states

The actor of `Verif.Active`, with plain states, `LinearChangingState`s and `SharedLinearChangingState`s, meets what `c77_predicts_partial` asks of an
actor. (Recorded histories are not compared: others that read a state add to them.)
-/

namespace Verif.Predict

open Verif.Active (Cfg Data Out Kind upd)

/-- What a task does with its actor: read, change (`actor.n = f(actor.n)`), assign to a plain state, activate and deactivate. -/
inductive AOp where
  | read (n : Nat)
  | change (n : Nat) (f : Rat → Rat)
  | put (n : Nat) (x : Rat)
  | activate (n t : Nat) (rate : Option Rat)
  | deactivate (n t : Nat)
  | deactivateAll (t : Nat) (ord : List Nat)

/-- One call (`Verif.Active.step`: states.py 245-280, 410-424, 480-506, actor.py 314-434). -/
def acall (c : Cfg) (s : Active.St) : AOp → Active.St × Out
  | .read n => Active.read c s n
  | .change n f =>
    match Active.read c s n with
    | (s', .val v) => Active.assign c s' n (f v)
    | (s', o) => (s', o)
  | .put n x => if c.kind n = some .plain then Active.assign c s n x else (s, .raised)
  | .activate n t r => Active.activate c s n t r
  | .deactivate n t => Active.deactivate c s n t
  | .deactivateAll t ord => Active.deactivateAll c s t ord

/-- An actor with its states. Others read. -/
def actor (c : Cfg) : Methods Rat Active.St AOp Out where
  step t o s := acall c { s with now := t } o
  reads o := ∃ n, o = .read n

/-- The state does not change by itself. -/
def Still (c : Cfg) (n : Nat) (a b : Active.St) : Prop :=
  a.value n = b.value n ∧ a.active n = b.active n ∧ (c.kind n = some .linear → a.value n ≠ none → ∀ d, a.active n = some d → d.rate = none) ∧
    (c.kind n = some .shared → a.value n ≠ none → a.active n = none)

/-- It changes linearly, and is the same on both sides at time `t`, perhaps computed from different times. -/
def Runs (c : Cfg) (t : Rat) (n : Nat) (a b : Active.St) : Prop :=
  c.kind n = some .linear ∧ a.tbs n ≠ [] ∧ ∃ x y da db r, a.value n = some x ∧ b.value n = some y ∧ a.active n = some da ∧ b.active n = some db ∧
    da.rate = some r ∧ db.rate = some r ∧ da.started ≤ t ∧ db.started ≤ t ∧ x + (t - da.started) * r = y + (t - db.started) * r

/-- The rates of the tasks after reading a shared state; `none` if that raises. -/
def nextTasks (task : Option Nat) (rate : Option Rat) (rt : List (Nat × Rat)) : Option (List (Nat × Rat)) :=
  match task with
  | none => some rt
  | some k =>
    match rate with
    | none => none
    | some r => if Active.hasTask rt k then none else some (rt ++ [(k, r)])

/-- It is shared by tasks, the same ones with the same rates, and is the same on both sides at time `t`. -/
def Shares (c : Cfg) (t : Rat) (n : Nat) (a b : Active.St) : Prop :=
  c.kind n = some .shared ∧ ∃ x y da db, a.value n = some x ∧ b.value n = some y ∧ a.active n = some da ∧ b.active n = some db ∧
    da.task = db.task ∧ da.rate = db.rate ∧ da.rateTasks.getD [] = db.rateTasks.getD [] ∧ ((da.task = none ∧ da.rate = none) ∨ nextTasks da.task da.rate (da.rateTasks.getD []) = none) ∧
    (da.last = none → Active.total (da.rateTasks.getD []) = 0) ∧ (db.last = none → Active.total (da.rateTasks.getD []) = 0) ∧
    x + (t - da.last.getD t) * Active.total (da.rateTasks.getD []) = y + (t - db.last.getD t) * Active.total (da.rateTasks.getD [])

/-- A state is the same on both sides, now and later. -/
def Cell (c : Cfg) (t : Rat) (n : Nat) (a b : Active.St) : Prop := Still c n a b ∨ Runs c t n a b ∨ Shares c t n a b

/-- Actors with the same values at `t` and from then on. -/
def Alike (c : Cfg) (t : Rat) (a b : Active.St) : Prop := a.tbs = b.tbs ∧ a.sbt = b.sbt ∧ ∀ n, Cell c t n a b

theorem Alike.later {c : Cfg} {t t' : Rat} {a b : Active.St} (h : Alike c t a b) (ht : t ≤ t') : Alike c t' a b := by
  refine ⟨h.1, h.2.1, fun n => ?_⟩
  rcases h.2.2 n with h | ⟨h1, h2, x, y, da, db, r, h3, h4, h5, h6, h7, h8, h9, h10, h11⟩ | ⟨h1, x, y, da, db, h2, h3, h4, h5, h6, h7, h8, hn, h9, h10, h11⟩
  · exact .inl h
  · refine .inr (.inl ⟨h1, h2, x, y, da, db, r, h3, h4, h5, h6, h7, h8, h9.trans ht, h10.trans ht, ?_⟩)
    linear_combination h11
  · refine .inr (.inr ⟨h1, x, y, da, db, h2, h3, h4, h5, h6, h7, h8, hn, h9, h10, ?_⟩)
    cases hla : da.last with
    | none =>
      rw [hla] at h11
      rw [h9 hla] at h11 ⊢
      linear_combination h11
    | some la =>
      cases hlb : db.last with
      | none =>
        rw [hlb] at h11
        rw [h10 hlb] at h11 ⊢
        linear_combination h11
      | some lb =>
        rw [hla, hlb] at h11
        simp only [Option.getD_some] at h11 ⊢
        linear_combination h11

/-- The same up to the history and the clock. -/
theorem Alike.congr {c : Cfg} {t : Rat} {a b a' b' : Active.St} (h : Alike c t a b) (ha : a'.value = a.value ∧ a'.active = a.active ∧ a'.tbs = a.tbs ∧ a'.sbt = a.sbt)
    (hb : b'.value = b.value ∧ b'.active = b.active ∧ b'.tbs = b.tbs ∧ b'.sbt = b.sbt) : Alike c t a' b' := by
  obtain ⟨a1, a2, a3, a4⟩ := ha
  obtain ⟨b1, b2, b3, b4⟩ := hb
  refine ⟨by rw [a3, b3]; exact h.1, by rw [a4, b4]; exact h.2.1, fun n => ?_⟩
  unfold Cell Still Runs Shares
  rw [a1, a2, a3, b1, b2]
  exact h.2.2 n

theorem record_same (c : Cfg) (s : Active.St) (n : Nat) (e : Active.Entry) :
    (Active.record c s n e).value = s.value ∧ (Active.record c s n e).active = s.active ∧ (Active.record c s n e).tbs = s.tbs ∧ (Active.record c s n e).sbt = s.sbt ∧
      (Active.record c s n e).now = s.now := by
  unfold Active.record
  split <;> exact ⟨rfl, rfl, rfl, rfl, rfl⟩

/-- Reading a state that does not change by itself. -/
theorem read_still {c : Cfg} {n : Nat} {a b : Active.St} (h : Still c n a b) : ∃ o, Active.read c a n = (a, o) ∧ Active.read c b n = (b, o) := by
  obtain ⟨h1, h2, h3, h4⟩ := h
  unfold Active.read
  cases hk : c.kind n with
  | none => exact ⟨_, rfl, rfl⟩
  | some k =>
    cases k with
    | shared =>
      simp only [Active.readShared]
      rw [← h1, ← h2]
      have h4 := h4 hk
      cases hv : a.value n with
      | none => exact ⟨_, rfl, rfl⟩
      | some v =>
        rw [h4 (by rw [hv]; simp)]
        exact ⟨_, rfl, rfl⟩
    | plain =>
      dsimp only
      rw [← h1]
      cases a.value n with
      | none => exact ⟨_, rfl, rfl⟩
      | some v => exact ⟨_, rfl, rfl⟩
    | linear =>
      simp only [Active.readLinear]
      rw [← h1, ← h2]
      have h3 := h3 hk
      cases hv : a.value n with
      | none => exact ⟨_, rfl, rfl⟩
      | some v =>
        cases hd : a.active n with
        | none => exact ⟨_, rfl, rfl⟩
        | some d =>
          have := h3 (by rw [hv]; simp) d hd
          simp only [this]
          exact ⟨_, rfl, rfl⟩

/-- Reading one that does. -/
theorem read_runs {c : Cfg} {n : Nat} {a : Active.St} {x r : Rat} {d : Data} (hk : c.kind n = some .linear) (hv : a.value n = some x) (hd : a.active n = some d)
    (hr : d.rate = some r) (ht : d.started ≤ a.now) : ∃ a' d', Active.read c a n = (a', .val (x + (a.now - d.started) * r)) ∧
      a'.value = upd a.value n (some (x + (a.now - d.started) * r)) ∧ a'.active = upd a.active n (some d') ∧ d'.rate = some r ∧ d'.started = a.now ∧ a'.tbs = a.tbs ∧ a'.sbt = a.sbt := by
  unfold Active.read
  rw [hk]
  simp only [Active.readLinear, hv, hd, hr]
  rw [if_neg (not_lt.2 ht)]
  obtain ⟨g1, g2, g3, g4, -⟩ := record_same c { a with value := upd a.value n (some (x + (a.now - d.started) * r)) } n (.val (x + (a.now - d.started) * r))
  refine ⟨_, ⟨a.now, none, some r, none.or ((a.active n).bind (·.rateTasks)), none.or ((a.active n).bind (·.last))⟩, rfl, ?_, ?_, rfl, rfl, ?_, ?_⟩
  · simp only [Active.setActive, Active.setVal]; exact g1
  · simp only [Active.setActive, Active.setVal]; rw [g2]
  · simp only [Active.setActive, Active.setVal]; exact g3
  · simp only [Active.setActive, Active.setVal]; exact g4

/-- Reading a shared one. -/
theorem read_shares {c : Cfg} {n : Nat} {a : Active.St} {x : Rat} {d : Data} (hk : c.kind n = some .shared) (hv : a.value n = some x) (hd : a.active n = some d) :
    (nextTasks d.task d.rate (d.rateTasks.getD []) = none → Active.read c a n = (a, .raised)) ∧
    ∀ rt, nextTasks d.task d.rate (d.rateTasks.getD []) = some rt →
      ∃ a', Active.read c a n = (a', .val (x + (a.now - d.last.getD a.now) * Active.total (d.rateTasks.getD []))) ∧
        a'.value = upd a.value n (some (x + (a.now - d.last.getD a.now) * Active.total (d.rateTasks.getD []))) ∧
        a'.active = upd a.active n (some ⟨a.now, none, none, some rt, some a.now⟩) ∧ a'.tbs = a.tbs ∧ a'.sbt = a.sbt := by
  have ok : ∀ rt, ∃ a', (Active.setActive (Active.setVal c a n (x + (a.now - d.last.getD a.now) * Active.total (d.rateTasks.getD []))) n a.now none none (some rt) (some a.now),
      Out.val (x + (a.now - d.last.getD a.now) * Active.total (d.rateTasks.getD []))) = (a', .val (x + (a.now - d.last.getD a.now) * Active.total (d.rateTasks.getD []))) ∧
        a'.value = upd a.value n (some (x + (a.now - d.last.getD a.now) * Active.total (d.rateTasks.getD []))) ∧
        a'.active = upd a.active n (some ⟨a.now, none, none, some rt, some a.now⟩) ∧ a'.tbs = a.tbs ∧ a'.sbt = a.sbt := by
    intro rt
    obtain ⟨g1, g2, g3, g4, -⟩ := record_same c { a with value := upd a.value n (some (x + (a.now - d.last.getD a.now) * Active.total (d.rateTasks.getD []))) } n
      (.val (x + (a.now - d.last.getD a.now) * Active.total (d.rateTasks.getD [])))
    refine ⟨_, rfl, ?_, ?_, ?_, ?_⟩
    · simp only [Active.setActive, Active.setVal]; exact g1
    · simp only [Active.setActive, Active.setVal]; rw [g2]; rfl
    · simp only [Active.setActive, Active.setVal]; exact g3
    · simp only [Active.setActive, Active.setVal]; exact g4
  unfold Active.read
  rw [hk]
  simp only [Active.readShared, hv, hd, nextTasks]
  cases ht : d.task with
  | none =>
    refine ⟨fun h => (by cases h), fun rt h => ?_⟩
    obtain rfl := Option.some.inj h
    exact ok _
  | some k =>
    cases hr : d.rate with
    | none => exact ⟨fun _ => rfl, fun rt h => (by cases h)⟩
    | some r =>
      dsimp only
      by_cases hh : Active.hasTask (d.rateTasks.getD []) k = true
      · rw [if_pos hh, if_pos hh]
        exact ⟨fun _ => rfl, fun rt h => (by cases h)⟩
      · rw [if_neg hh, if_neg hh]
        refine ⟨fun h => (by cases h), fun rt h => ?_⟩
        obtain rfl := Option.some.inj h
        exact ok _

/-- What a state was, when another one is written. -/
theorem other_state {c : Cfg} {t : Rat} {n m : Nat} {a b a' b' : Active.St} (hm : m ≠ n) (h : Cell c t m a b) (ha : a'.value m = a.value m ∧ a'.active m = a.active m ∧ a'.tbs m = a.tbs m)
    (hb : b'.value m = b.value m ∧ b'.active m = b.active m) : Cell c t m a' b' := by
  unfold Cell Still Runs Shares at *
  rw [ha.1, ha.2.1, ha.2.2, hb.1, hb.2]
  exact h

theorem upd_ne {β : Type} (f : Nat → β) {k x : Nat} (v : β) (h : x ≠ k) : upd f k v x = f x := by simp [upd, h]
theorem upd_eq {β : Type} (f : Nat → β) (k : Nat) (v : β) : upd f k v k = v := by simp [upd]

/-- Reading on both sides gives the same and leaves the same. -/
theorem Alike.read {c : Cfg} {t : Rat} {a b : Active.St} (h : Alike c t a b) (ha : a.now = t) (hb : b.now = t) (n : Nat) :
    (Active.read c a n).2 = (Active.read c b n).2 ∧ Alike c t (Active.read c a n).1 (Active.read c b n).1 := by
  obtain ⟨h1, h2, h3⟩ := h
  rcases h3 n with hn | ⟨hk, htb, x, y, da, db, r, e1, e2, e3, e4, e5, e6, e7, e8, e9⟩ | ⟨hk, x, y, da, db, e1, e2, e3, e4, e5, e6, e7, en, e8, e9, e10⟩
  · obtain ⟨o, g1, g2⟩ := read_still hn
    rw [g1, g2]
    exact ⟨rfl, h1, h2, h3⟩
  · obtain ⟨a', da', p1, p2, p3, p4, p5, p6, p7⟩ := read_runs hk e1 e3 e5 (by rw [ha]; exact e7)
    obtain ⟨b', db', q1, q2, q3, q4, q5, q6, q7⟩ := read_runs hk e2 e4 e6 (by rw [hb]; exact e8)
    rw [ha] at p1 p2 p5
    rw [hb] at q1 q2 q5
    rw [p1, q1, e9]
    refine ⟨rfl, by rw [p6, q6]; exact h1, by rw [p7, q7]; exact h2, fun m => ?_⟩
    by_cases hm : m = n
    · subst hm
      refine .inr (.inl ⟨hk, by rw [p6]; exact htb, _, _, da', db', r, by rw [p2, upd_eq], by rw [q2, upd_eq], by rw [p3, upd_eq], by rw [q3, upd_eq], p4, q4, p5.le, q5.le, ?_⟩)
      rw [p5, q5, e9]
    · exact other_state hm (h3 m) ⟨by rw [p2, upd_ne _ _ hm], by rw [p3, upd_ne _ _ hm], by rw [p6]⟩ ⟨by rw [q2, upd_ne _ _ hm], by rw [q3, upd_ne _ _ hm]⟩
  · obtain ⟨pr, po⟩ := read_shares hk e1 e3
    obtain ⟨qr, qo⟩ := read_shares hk e2 e4
    rw [← e5, ← e6, ← e7] at qr qo
    cases hx : nextTasks da.task da.rate (da.rateTasks.getD []) with
    | none =>
      rw [pr hx, qr hx]
      exact ⟨rfl, h1, h2, h3⟩
    | some rt =>
      obtain ⟨a', p1, p2, p3, p4, p5⟩ := po rt hx
      obtain ⟨b', q1, q2, q3, q4, q5⟩ := qo rt hx
      rw [ha] at p1 p2 p3
      rw [hb] at q1 q2 q3
      rw [p1, q1, e10]
      refine ⟨rfl, by rw [p4, q4]; exact h1, by rw [p5, q5]; exact h2, fun m => ?_⟩
      by_cases hm : m = n
      · subst hm
        refine .inr (.inr ⟨hk, _, _, _, _, by rw [p2, upd_eq], by rw [q2, upd_eq], by rw [p3, upd_eq], by rw [q3, upd_eq], rfl, rfl, rfl, .inl ⟨rfl, rfl⟩, fun h => (by cases h), fun h => (by cases h), ?_⟩)
        rw [e10]
      · exact other_state hm (h3 m) ⟨by rw [p2, upd_ne _ _ hm], by rw [p3, upd_ne _ _ hm], by rw [p4]⟩ ⟨by rw [q2, upd_ne _ _ hm], by rw [q3, upd_ne _ _ hm]⟩

/-- Reading on one side cannot be noticed. -/
theorem Alike.look {c : Cfg} {t : Rat} {a b : Active.St} (h : Alike c t a b) (ha : a.now = t) (n : Nat) :
    Alike c t (Active.read c a n).1 b := by
  obtain ⟨h1, h2, h3⟩ := h
  rcases h3 n with hn | ⟨hk, htb, x, y, da, db, r, e1, e2, e3, e4, e5, e6, e7, e8, e9⟩ | ⟨hk, x, y, da, db, e1, e2, e3, e4, e5, e6, e7, en, e8, e9, e10⟩
  · obtain ⟨o, g1, g2⟩ := read_still hn
    rw [g1]
    exact ⟨h1, h2, h3⟩
  · obtain ⟨a', da', p1, p2, p3, p4, p5, p6, p7⟩ := read_runs hk e1 e3 e5 (by rw [ha]; exact e7)
    rw [ha] at p1 p2 p5
    rw [p1]
    refine ⟨by rw [p6]; exact h1, by rw [p7]; exact h2, fun m => ?_⟩
    by_cases hm : m = n
    · subst hm
      refine .inr (.inl ⟨hk, by rw [p6]; exact htb, _, y, da', db, r, by rw [p2, upd_eq], e2, by rw [p3, upd_eq], e4, p4, e6, p5.le, e8, ?_⟩)
      rw [p5, ← e9]
      ring
    · exact other_state hm (h3 m) ⟨by rw [p2, upd_ne _ _ hm], by rw [p3, upd_ne _ _ hm], by rw [p6]⟩ ⟨rfl, rfl⟩
  · obtain ⟨pr, po⟩ := read_shares hk e1 e3
    cases hx : nextTasks da.task da.rate (da.rateTasks.getD []) with
    | none =>
      rw [pr hx]
      exact ⟨h1, h2, h3⟩
    | some rt =>
      obtain ⟨ht, hra⟩ : da.task = none ∧ da.rate = none := by
        rcases en with en | en
        · exact en
        · rw [en] at hx; cases hx
      have hrt : rt = da.rateTasks.getD [] := by
        rw [ht] at hx
        exact (Option.some.inj hx).symm
      subst hrt
      obtain ⟨a', p1, p2, p3, p4, p5⟩ := po _ hx
      rw [ha] at p1 p2 p3
      rw [p1]
      refine ⟨by rw [p4]; exact h1, by rw [p5]; exact h2, fun m => ?_⟩
      by_cases hm : m = n
      · subst hm
        refine .inr (.inr ⟨hk, _, y, ⟨t, none, none, some (da.rateTasks.getD []), some t⟩, db, by rw [p2, upd_eq], e2, by rw [p3, upd_eq], e4, by rw [← e5, ht], by rw [← e6, hra], e7, .inl ⟨rfl, rfl⟩, fun h => (by cases h), e9, ?_⟩)
        rw [e10]
        simp
      · exact other_state hm (h3 m) ⟨by rw [p2, upd_ne _ _ hm], by rw [p3, upd_ne _ _ hm], by rw [p4]⟩ ⟨rfl, rfl⟩

/-- Assigning to both sides what is the same. -/
theorem Alike.set {c : Cfg} {t : Rat} {a b : Active.St} (h : Alike c t a b) (n : Nat) (x : Rat) (hn : Still c n a b → a.value n ≠ none ∨ c.kind n = some .plain)
    (hr : Runs c t n a b → ∃ da db, a.active n = some da ∧ b.active n = some db ∧ da.started = t ∧ db.started = t)
    (hsh : Shares c t n a b → ∃ da db, a.active n = some da ∧ b.active n = some db ∧ da.last = some t ∧ db.last = some t) :
    Alike c t (Active.setVal c a n x) (Active.setVal c b n x) := by
  obtain ⟨h1, h2, h3⟩ := h
  unfold Active.setVal
  obtain ⟨g1, g2, g3, g4, -⟩ := record_same c { a with value := upd a.value n (some x) } n (.val x)
  obtain ⟨k1, k2, k3, k4, -⟩ := record_same c { b with value := upd b.value n (some x) } n (.val x)
  refine ⟨by rw [g3, k3]; exact h1, by rw [g4, k4]; exact h2, fun m => ?_⟩
  by_cases hm : m = n
  · subst hm
    unfold Cell Still Runs Shares
    rw [g1, g2, g3, k1, k2]
    dsimp only
    rw [upd_eq, upd_eq]
    rcases h3 m with hs | hs | hs
    · refine .inl ⟨rfl, hs.2.1, fun hk _ => ?_, fun hk _ => ?_⟩
      · rcases hn hs with hv | hp
        · exact hs.2.2.1 hk hv
        · rw [hp] at hk; cases hk
      · rcases hn hs with hv | hp
        · exact hs.2.2.2 hk hv
        · rw [hp] at hk; cases hk
    · obtain ⟨da', db', f1, f2, f3, f4⟩ := hr hs
      obtain ⟨hk, htb, x0, y, da, db, r, e1, e2, e3, e4, e5, e6, e7, e8, -⟩ := hs
      have i1 : da = da' := Option.some.inj (e3.symm.trans f1)
      have i2 : db = db' := Option.some.inj (e4.symm.trans f2)
      exact .inr (.inl ⟨hk, htb, x, x, da, db, r, rfl, rfl, e3, e4, e5, e6, e7, e8, by rw [i1, i2, f3, f4]⟩)
    · obtain ⟨da', db', f1, f2, f3, f4⟩ := hsh hs
      obtain ⟨hk, x0, y, da, db, e1, e2, e3, e4, e5, e6, e7, en, e8, e9, -⟩ := hs
      have i1 : da = da' := Option.some.inj (e3.symm.trans f1)
      have i2 : db = db' := Option.some.inj (e4.symm.trans f2)
      exact .inr (.inr ⟨hk, x, x, da, db, rfl, rfl, e3, e4, e5, e6, e7, en, e8, e9, by rw [i1, i2, f3, f4]⟩)
  · refine other_state hm (h3 m) ⟨?_, ?_, ?_⟩ ⟨?_, ?_⟩
    · rw [g1]; exact upd_ne _ _ hm
    · rw [g2]
    · rw [g3]
    · rw [k1]; exact upd_ne _ _ hm
    · rw [k2]

/-- After reading. -/
theorem read_started {c : Cfg} {t : Rat} {a : Active.St} {n : Nat} (hk : c.kind n = some .linear) (ha : a.now = t) {v r : Rat} {d : Data}
    (hv : (Active.read c a n).2 = .val v) (hd : (Active.read c a n).1.active n = some d) (hr : d.rate = some r) : d.started = t := by
  unfold Active.read at hv hd
  rw [hk] at hv hd
  simp only [Active.readLinear] at hv hd
  cases hx : a.value n with
  | none => rw [hx] at hv; cases hv
  | some x =>
    cases he : a.active n with
    | none =>
      simp only [hx, he] at hd
      cases hd
    | some e =>
      cases hr' : e.rate with
      | none => simp only [hx, he, hr'] at hv; cases hv
      | some r' =>
        simp only [hx, he, hr'] at hv hd
        by_cases hlt : a.now < e.started
        · rw [if_pos hlt] at hv; cases hv
        · rw [if_neg hlt] at hd
          simp only [Active.setActive, upd_eq, Option.some.injEq] at hd
          rw [← hd, ← ha]

/-- After reading a shared state. -/
theorem read_last {c : Cfg} {t : Rat} {a : Active.St} {n : Nat} (hk : c.kind n = some .shared) (ha : a.now = t) {v : Rat} {d : Data}
    (hv : (Active.read c a n).2 = .val v) (hd : (Active.read c a n).1.active n = some d) : d.last = some t := by
  cases hx : a.value n with
  | none =>
    unfold Active.read at hv
    rw [hk] at hv
    simp only [Active.readShared, hx] at hv
    cases hv
  | some x =>
    cases he : a.active n with
    | none =>
      unfold Active.read at hd
      rw [hk] at hd
      simp only [Active.readShared, hx, he] at hd
      cases hd
    | some e =>
      obtain ⟨p1, p2⟩ := read_shares hk hx he
      cases hn : nextTasks e.task e.rate (e.rateTasks.getD []) with
      | none => rw [p1 hn] at hv; cases hv
      | some rt =>
        obtain ⟨a', q1, -, q2, -⟩ := p2 rt hn
        rw [q1] at hd
        dsimp only at hd
        rw [q2, upd_eq] at hd
        rw [← Option.some.inj hd, ← ha]

/-- Reading a value that is there. -/
theorem read_value {c : Cfg} {a : Active.St} {n : Nat} {v : Rat} (hv : (Active.read c a n).2 = .val v) : (Active.read c a n).1.value n ≠ none := by
  unfold Active.read at hv ⊢
  cases hk : c.kind n with
  | none => rw [hk] at hv; cases hv
  | some k =>
    cases k with
    | shared =>
      rw [hk] at hv
      dsimp only at hv ⊢
      cases hx : a.value n with
      | none => simp only [Active.readShared, hx] at hv; cases hv
      | some x =>
        cases he : a.active n with
        | none => simp [Active.readShared, hx, he]
        | some e =>
          obtain ⟨p1, p2⟩ := read_shares hk hx he
          unfold Active.read at p1 p2
          rw [hk] at p1 p2
          cases hn : nextTasks e.task e.rate (e.rateTasks.getD []) with
          | none => have p1 := p1 hn; dsimp only at p1; rw [p1] at hv; cases hv
          | some rt =>
            obtain ⟨a', q1, q2, -⟩ := p2 rt hn
            dsimp only at q1
            rw [q1]
            dsimp only
            rw [q2, upd_eq]
            simp
    | plain =>
      rw [hk] at hv
      dsimp only at hv ⊢
      cases hx : a.value n with
      | none => rw [hx] at hv; cases hv
      | some x => simp [hx]
    | linear =>
      rw [hk] at hv
      simp only [Active.readLinear] at hv ⊢
      cases hx : a.value n with
      | none => rw [hx] at hv; cases hv
      | some x =>
        cases he : a.active n with
        | none => simp [hx]
        | some e =>
          cases hr' : e.rate with
          | none => simp only [hx, he, hr'] at hv; cases hv
          | some r' =>
            simp only [hx, he, hr'] at hv ⊢
            by_cases hlt : a.now < e.started
            · rw [if_pos hlt] at hv; cases hv
            · rw [if_neg hlt]
              simp only [Active.setActive, Active.setVal]
              rw [(record_same c _ n _).1]
              simp [upd_eq]

theorem Alike.change {c : Cfg} {t : Rat} {a b : Active.St} (h : Alike c t a b) (ha : a.now = t) (hb : b.now = t) (n : Nat) (f : Rat → Rat) :
    (acall c a (.change n f)).2 = (acall c b (.change n f)).2 ∧ Alike c t (acall c a (.change n f)).1 (acall c b (.change n f)).1 := by
  obtain ⟨g1, g2⟩ := h.read ha hb n
  have hva := @read_value c a n
  have hsa := @read_started c t a n
  have hsb := @read_started c t b n
  have hla := @read_last c t a n
  have hlb := @read_last c t b n
  simp only [acall]
  rcases hA : Active.read c a n with ⟨a', o⟩
  rcases hB : Active.read c b n with ⟨b', o'⟩
  rw [hA] at g1 g2 hva hsa hla
  rw [hB] at g1 g2 hsb hlb
  dsimp only at g1 g2 hva hsa hsb hla hlb
  subst g1
  cases o with
  | val v =>
    dsimp only
    unfold Active.assign
    cases hk : c.kind n with
    | none => exact ⟨rfl, g2⟩
    | some k =>
      refine ⟨rfl, g2.set n (f v) (fun _ => .inl (hva rfl)) (fun hr => ?_) (fun hr => ?_)⟩
      · obtain ⟨hk, htb, x, y, da, db, r, e1, e2, e3, e4, e5, e6, -⟩ := hr
        exact ⟨da, db, e3, e4, hsa hk ha rfl e3 e5, hsb hk hb rfl e4 e6⟩
      · obtain ⟨hk, x, y, da, db, e1, e2, e3, e4, -⟩ := hr
        exact ⟨da, db, e3, e4, hla hk ha rfl e3, hlb hk hb rfl e4⟩
  | ok => exact ⟨rfl, g2⟩
  | raised => exact ⟨rfl, g2⟩
  | all d f => exact ⟨rfl, g2⟩

theorem Alike.put {c : Cfg} {t : Rat} {a b : Active.St} (h : Alike c t a b) (n : Nat) (x : Rat) :
    (acall c a (.put n x)).2 = (acall c b (.put n x)).2 ∧ Alike c t (acall c a (.put n x)).1 (acall c b (.put n x)).1 := by
  simp only [acall]
  by_cases hk : c.kind n = some .plain
  · rw [if_pos hk, if_pos hk]
    unfold Active.assign
    rw [hk]
    refine ⟨rfl, h.set n x (fun _ => .inr hk) (fun hr => ?_) (fun hr => ?_)⟩
    · have := hr.1
      rw [hk] at this; cases this
    · have := hr.1
      rw [hk] at this; cases this
  · rw [if_neg hk, if_neg hk]
    exact ⟨rfl, h⟩

theorem addTo_ne (l : List Nat) (x : Nat) : Active.addTo l x ≠ [] := by
  unfold Active.addTo
  split
  · rename_i h; exact List.ne_nil_of_mem h
  · simp

theorem Alike.activate {c : Cfg} {t : Rat} {a b : Active.St} (h : Alike c t a b) (ha : a.now = t) (hb : b.now = t) (n k : Nat) (r : Option Rat) :
    (Active.activate c a n k r).2 = (Active.activate c b n k r).2 ∧ Alike c t (Active.activate c a n k r).1 (Active.activate c b n k r).1 := by
  unfold Active.activate
  cases hk : c.kind n with
  | none => exact ⟨rfl, h⟩
  | some kd =>
    dsimp only
    have hloc : Active.lockRefused kd b n k = Active.lockRefused kd a n k := by
      unfold Active.lockRefused
      rw [h.1]
    rw [hloc]
    by_cases hl : Active.lockRefused kd a n k = true
    · rw [if_pos hl, if_pos hl]
      exact ⟨rfl, h⟩
    · rw [if_neg hl, if_neg hl]
      -- reading, after the state is locked and set to be active
      obtain ⟨g1, g2⟩ : (Active.read c (Active.setActive (Active.lock a n k) n a.now (some k) r none none) n).2 =
          (Active.read c (Active.setActive (Active.lock b n k) n b.now (some k) r none none) n).2 ∧
          Alike c t (Active.read c (Active.setActive (Active.lock a n k) n a.now (some k) r none none) n).1
            (Active.read c (Active.setActive (Active.lock b n k) n b.now (some k) r none none) n).1 := by
        have htbs : (Active.setActive (Active.lock a n k) n a.now (some k) r none none).tbs = (Active.setActive (Active.lock b n k) n b.now (some k) r none none).tbs := by
          simp only [Active.setActive, Active.lock, h.1]
        have hsbt : (Active.setActive (Active.lock a n k) n a.now (some k) r none none).sbt = (Active.setActive (Active.lock b n k) n b.now (some k) r none none).sbt := by
          simp only [Active.setActive, Active.lock, h.2.1]
        have hother : ∀ m, m ≠ n → Cell c t m (Active.setActive (Active.lock a n k) n a.now (some k) r none none) (Active.setActive (Active.lock b n k) n b.now (some k) r none none) :=
          fun m hm => other_state hm (h.2.2 m) ⟨rfl, upd_ne _ _ hm, upd_ne _ _ hm⟩ ⟨rfl, upd_ne _ _ hm⟩
        have hcell : Cell c t n (Active.setActive (Active.lock a n k) n a.now (some k) r none none) (Active.setActive (Active.lock b n k) n b.now (some k) r none none) ∨
            (c.kind n = some .shared ∧ ∃ x y da db, a.value n = some x ∧ b.value n = some y ∧
              (Active.setActive (Active.lock a n k) n a.now (some k) r none none).active n = some da ∧
              (Active.setActive (Active.lock b n k) n b.now (some k) r none none).active n = some db ∧
              da.task = db.task ∧ da.rate = db.rate ∧ da.rateTasks.getD [] = db.rateTasks.getD [] ∧
              (da.last = none → Active.total (da.rateTasks.getD []) = 0) ∧ (db.last = none → Active.total (da.rateTasks.getD []) = 0) ∧
              x + (t - da.last.getD t) * Active.total (da.rateTasks.getD []) = y + (t - db.last.getD t) * Active.total (da.rateTasks.getD [])) := by
          rcases h.2.2 n with hst | hru | hsh
          · unfold Cell Still Runs Shares
            simp only [Active.setActive, Active.lock, upd_eq, ha, hb]
            rw [← hst.2.1, ← hst.1]
            by_cases hv : a.value n = none
            · exact .inl (.inl ⟨rfl, rfl, fun _ h => absurd hv h, fun _ h => absurd hv h⟩)
            · obtain ⟨x, hx⟩ := Option.ne_none_iff_exists'.1 hv
              cases kd with
              | plain => exact .inl (.inl ⟨rfl, rfl, fun h => (by rw [hk] at h; cases h), fun h => (by rw [hk] at h; cases h)⟩)
              | linear =>
                cases r with
                | none => exact .inl (.inl ⟨rfl, rfl, fun _ _ d hd => (by cases hd; rfl), fun h => (by rw [hk] at h; cases h)⟩)
                | some r => exact .inl (.inr (.inl ⟨hk, addTo_ne _ _, x, x, _, _, r, hx, hx, rfl, rfl, rfl, rfl, le_refl _, le_refl _, rfl⟩))
              | shared =>
                rw [hst.2.2.2 hk hv]
                exact .inr ⟨hk, x, x, _, _, hx, hx, rfl, rfl, rfl, rfl, rfl, fun _ => rfl, fun _ => rfl, rfl⟩
          · have := hru.1
            rw [hk] at this
            cases this
            exact absurd (decide_eq_true hru.2.1) hl
          · obtain ⟨hk', x, y, da, db, e1, e2, e3, e4, e5, e6, e7, en, e8, e9, e10⟩ := hsh
            refine .inr ⟨hk', x, y, ⟨a.now, some k, r, da.rateTasks, da.last⟩, ⟨b.now, some k, r, db.rateTasks, db.last⟩, e1, e2, ?_, ?_, rfl, rfl, e7, e8, e9, e10⟩
            · simp only [Active.setActive, Active.lock, upd_eq, e3, Option.bind_some, Option.none_or]
            · simp only [Active.setActive, Active.lock, upd_eq, e4, Option.bind_some, Option.none_or]
        rcases hcell with hcell | ⟨hks, x, y, da, db, e1, e2, e3, e4, e5, e6, e7, e8, e9, e10⟩
        · have h' : Alike c t (Active.setActive (Active.lock a n k) n a.now (some k) r none none) (Active.setActive (Active.lock b n k) n b.now (some k) r none none) :=
            ⟨htbs, hsbt, fun m => by
              by_cases hm : m = n
              · rw [hm]; exact hcell
              · exact hother m hm⟩
          exact h'.read ha hb n
        · have na : (Active.setActive (Active.lock a n k) n a.now (some k) r none none).now = t := ha
          have nb : (Active.setActive (Active.lock b n k) n b.now (some k) r none none).now = t := hb
          have va : (Active.setActive (Active.lock a n k) n a.now (some k) r none none).value n = some x := e1
          have vb : (Active.setActive (Active.lock b n k) n b.now (some k) r none none).value n = some y := e2
          generalize Active.setActive (Active.lock a n k) n a.now (some k) r none none = A at *
          generalize Active.setActive (Active.lock b n k) n b.now (some k) r none none = B at *
          obtain ⟨pr, po⟩ := read_shares hks va e3
          obtain ⟨qr, qo⟩ := read_shares hks vb e4
          rw [← e5, ← e6, ← e7] at qr qo
          cases hx : nextTasks da.task da.rate (da.rateTasks.getD []) with
          | none =>
            rw [pr hx, qr hx]
            refine ⟨rfl, htbs, hsbt, fun m => ?_⟩
            by_cases hm : m = n
            · subst hm
              exact .inr (.inr ⟨hks, x, y, da, db, va, vb, e3, e4, e5, e6, e7, .inr hx, e8, e9, e10⟩)
            · exact hother m hm
          | some rt =>
            obtain ⟨a', p1, p2, p3, p4, p5⟩ := po rt hx
            obtain ⟨b', q1, q2, q3, q4, q5⟩ := qo rt hx
            rw [na] at p1 p2 p3
            rw [nb] at q1 q2 q3
            rw [p1, q1, e10]
            refine ⟨rfl, by rw [p4, q4]; exact htbs, by rw [p5, q5]; exact hsbt, fun m => ?_⟩
            by_cases hm : m = n
            · subst hm
              refine .inr (.inr ⟨hks, _, _, _, _, by rw [p2, upd_eq], by rw [q2, upd_eq], by rw [p3, upd_eq], by rw [q3, upd_eq], rfl, rfl, rfl, .inl ⟨rfl, rfl⟩, fun h => (by cases h), fun h => (by cases h), ?_⟩)
              rw [e10]
            · exact other_state hm (hother m hm) ⟨by rw [p2, upd_ne _ _ hm], by rw [p3, upd_ne _ _ hm], by rw [p4]⟩ ⟨by rw [q2, upd_ne _ _ hm], by rw [q3, upd_ne _ _ hm]⟩
      rcases hA : Active.read c (Active.setActive (Active.lock a n k) n a.now (some k) r none none) n with ⟨a', o⟩
      rcases hB : Active.read c (Active.setActive (Active.lock b n k) n b.now (some k) r none none) n with ⟨b', o'⟩
      rw [hA] at g1 g2
      rw [hB] at g1 g2
      dsimp only at g1 g2
      subst g1
      cases o with
      | val v =>
        dsimp only
        by_cases hp : kd = .plain
        · rw [if_pos hp, if_pos hp]; exact ⟨rfl, g2⟩
        · rw [if_neg hp, if_neg hp]
          obtain ⟨r1, r2, r3, r4, -⟩ := record_same c a' n .activating
          obtain ⟨s1, s2, s3, s4, -⟩ := record_same c b' n .activating
          exact ⟨rfl, g2.congr ⟨r1, r2, r3, r4⟩ ⟨s1, s2, s3, s4⟩⟩
      | ok => exact ⟨rfl, g2⟩
      | raised => exact ⟨rfl, g2⟩
      | all d f => exact ⟨rfl, g2⟩

theorem read_now (c : Cfg) (s : Active.St) (n : Nat) : (Active.read c s n).1.now = s.now := by
  unfold Active.read
  cases c.kind n with
  | none => rfl
  | some k =>
    cases k with
    | plain => dsimp only; split <;> rfl
    | linear =>
      simp only [Active.readLinear]
      split
      · rfl
      · split
        · rfl
        · split
          · rfl
          · split
            · rfl
            · simp only [Active.setActive, Active.setVal]; exact (record_same c _ n _).2.2.2.2
    | shared =>
      simp only [Active.readShared]
      split
      · rfl
      · split
        · rfl
        · split
          · simp only [Active.setActive, Active.setVal]; exact (record_same c _ n _).2.2.2.2
          · split
            · rfl
            · split
              · rfl
              · simp only [Active.setActive, Active.setVal]; exact (record_same c _ n _).2.2.2.2

theorem off_no {c : Cfg} {s : Active.St} {n k : Nat} (h : ¬ Active.hasTask (((s.active n).bind (·.rateTasks)).getD []) k = true) : Active.offShared c s n k = (s, .raised) := by
  unfold Active.offShared
  dsimp only
  rw [if_neg h]

theorem off_yes {c : Cfg} {s s2 : Active.St} {n k : Nat} {v : Rat} {rt : List (Nat × Rat)} (hrt : ((s.active n).bind (·.rateTasks)).getD [] = rt) (hh : Active.hasTask rt k = true)
    (hr : Active.read c (Active.setActive s n s.now none none (some (rt.filter fun p => p.1 ≠ k)) none) n = (s2, .val v)) :
    Active.offShared c s n k = (if (rt.filter fun p => p.1 ≠ k) = [] then Active.drop s2 n else s2, .ok) := by
  subst hrt
  unfold Active.offShared
  dsimp only
  rw [if_pos hh, hr]

/-- The end of the deactivation of a shared state. -/
theorem Alike.off {c : Cfg} {t : Rat} {a b : Active.St} (h : Alike c t a b) (ha : a.now = t) (hb : b.now = t) {n : Nat} (k : Nat) (hk : c.kind n = some .shared) (hv : a.value n ≠ none)
    (hsh : Shares c t n a b → ∃ da db, a.active n = some da ∧ b.active n = some db ∧ da.last = some t ∧ db.last = some t) :
    (Active.offShared c a n k).2 = (Active.offShared c b n k).2 ∧ Alike c t (Active.offShared c a n k).1 (Active.offShared c b n k).1 := by
  rcases h.2.2 n with hn | hn | hn
  · have e1 := hn.2.2.2 hk hv
    have e2 : b.active n = none := by rw [← hn.2.1]; exact e1
    rw [off_no (by rw [e1]; simp [Active.hasTask]), off_no (by rw [e2]; simp [Active.hasTask])]
    exact ⟨rfl, h⟩
  · have := hn.1
    rw [hk] at this; cases this
  · obtain ⟨da', db', f1, f2, f3, f4⟩ := hsh hn
    obtain ⟨-, x, y, da, db, e1, e2, e3, e4, e5, e6, e7, en, e8, e9, e10⟩ := hn
    have i1 : da = da' := Option.some.inj (e3.symm.trans f1)
    have i2 : db = db' := Option.some.inj (e4.symm.trans f2)
    subst i1 i2
    have hxy : x = y := by
      rw [f3, f4] at e10
      simpa using e10
    subst hxy
    have ra : ((a.active n).bind (·.rateTasks)).getD [] = da.rateTasks.getD [] := by rw [e3]; rfl
    have rb : ((b.active n).bind (·.rateTasks)).getD [] = da.rateTasks.getD [] := by rw [e4, e7]; rfl
    generalize da.rateTasks.getD [] = rt at *
    by_cases hh : Active.hasTask rt k = true
    · have va : (Active.setActive a n a.now none none (some (rt.filter fun p => p.1 ≠ k)) none).value n = some x := e1
      have vb : (Active.setActive b n b.now none none (some (rt.filter fun p => p.1 ≠ k)) none).value n = some x := e2
      have aa : (Active.setActive a n a.now none none (some (rt.filter fun p => p.1 ≠ k)) none).active n = some ⟨t, none, none, some (rt.filter fun p => p.1 ≠ k), some t⟩ := by
        simp only [Active.setActive, upd_eq, e3, Option.bind_some, Option.none_or, Option.some_or, f3, ha]
      have ab : (Active.setActive b n b.now none none (some (rt.filter fun p => p.1 ≠ k)) none).active n = some ⟨t, none, none, some (rt.filter fun p => p.1 ≠ k), some t⟩ := by
        simp only [Active.setActive, upd_eq, e4, Option.bind_some, Option.none_or, Option.some_or, f4, hb]
      have oa : ∀ m, m ≠ n → (Active.setActive a n a.now none none (some (rt.filter fun p => p.1 ≠ k)) none).active m = a.active m := fun m hm => upd_ne _ _ hm
      have ob : ∀ m, m ≠ n → (Active.setActive b n b.now none none (some (rt.filter fun p => p.1 ≠ k)) none).active m = b.active m := fun m hm => upd_ne _ _ hm
      have na : (Active.setActive a n a.now none none (some (rt.filter fun p => p.1 ≠ k)) none).now = t := ha
      have nb : (Active.setActive b n b.now none none (some (rt.filter fun p => p.1 ≠ k)) none).now = t := hb
      have wa : (Active.setActive a n a.now none none (some (rt.filter fun p => p.1 ≠ k)) none).value = a.value := rfl
      have wb : (Active.setActive b n b.now none none (some (rt.filter fun p => p.1 ≠ k)) none).value = b.value := rfl
      have ta : (Active.setActive a n a.now none none (some (rt.filter fun p => p.1 ≠ k)) none).tbs = a.tbs := rfl
      have tb : (Active.setActive b n b.now none none (some (rt.filter fun p => p.1 ≠ k)) none).tbs = b.tbs := rfl
      have sa : (Active.setActive a n a.now none none (some (rt.filter fun p => p.1 ≠ k)) none).sbt = a.sbt := rfl
      have sb : (Active.setActive b n b.now none none (some (rt.filter fun p => p.1 ≠ k)) none).sbt = b.sbt := rfl
      obtain ⟨-, po⟩ := read_shares hk va aa
      obtain ⟨-, qo⟩ := read_shares hk vb ab
      obtain ⟨a', p1, p2, p3, p4, p5⟩ := po _ rfl
      obtain ⟨b', q1, q2, q3, q4, q5⟩ := qo _ rfl
      rw [na] at p1 p2 p3
      rw [nb] at q1 q2 q3
      rw [off_yes ra hh p1, off_yes rb hh q1]
      refine ⟨rfl, ?_⟩
      dsimp only
      have ht : a'.tbs = b'.tbs := by rw [p4, q4, ta, tb]; exact h.1
      have hs : a'.sbt = b'.sbt := by rw [p5, q5, sa, sb]; exact h.2.1
      have hvv : a'.value n = b'.value n := by rw [p2, q2, upd_eq, upd_eq]
      have ho : ∀ m, m ≠ n → Cell c t m a' b' := fun m hm => other_state hm (h.2.2 m) ⟨by rw [p2, upd_ne _ _ hm, wa], by rw [p3, upd_ne _ _ hm, oa m hm], by rw [p4, ta]⟩
        ⟨by rw [q2, upd_ne _ _ hm, wb], by rw [q3, upd_ne _ _ hm, ob m hm]⟩
      split
      · refine ⟨ht, hs, fun m => ?_⟩
        by_cases hm : m = n
        · subst hm
          left
          unfold Still
          simp only [Active.drop, upd_eq]
          exact ⟨hvv, trivial, fun h => (by rw [hk] at h; cases h), fun _ _ => trivial⟩
        · exact other_state hm (ho m hm) ⟨rfl, upd_ne _ _ hm, rfl⟩ ⟨rfl, upd_ne _ _ hm⟩
      · refine ⟨ht, hs, fun m => ?_⟩
        by_cases hm : m = n
        · subst hm
          exact .inr (.inr ⟨hk, _, _, _, _, by rw [p2, upd_eq], by rw [q2, upd_eq], by rw [p3, upd_eq], by rw [q3, upd_eq], rfl, rfl, rfl, .inl ⟨rfl, rfl⟩, fun h => (by cases h), fun h => (by cases h), rfl⟩)
        · exact ho m hm
    · rw [off_no (by rw [ra]; exact hh), off_no (by rw [rb]; exact hh)]
      exact ⟨rfl, h⟩

theorem Alike.deactivate {c : Cfg} {t : Rat} {a b : Active.St} (h : Alike c t a b) (ha : a.now = t) (hb : b.now = t) (n k : Nat) :
    (Active.deactivate c a n k).2 = (Active.deactivate c b n k).2 ∧ Alike c t (Active.deactivate c a n k).1 (Active.deactivate c b n k).1 := by
  unfold Active.deactivate
  cases hk : c.kind n with
  | none => exact ⟨rfl, h⟩
  | some kd =>
    dsimp only
    rw [← h.1]
    by_cases htb : k ∈ a.tbs n
    · rw [if_pos htb, if_pos htb]
      have hother : ∀ m, m ≠ n → Cell c t m (Active.unlock a n k) (Active.unlock b n k) := fun m hm =>
        other_state hm (h.2.2 m) ⟨rfl, rfl, upd_ne _ _ hm⟩ ⟨rfl, rfl⟩
      have htbs : (Active.unlock a n k).tbs = (Active.unlock b n k).tbs := by simp only [Active.unlock, h.1]
      have hsbt : (Active.unlock a n k).sbt = (Active.unlock b n k).sbt := by simp only [Active.unlock, h.2.1]
      rcases h.2.2 n with hn | ⟨hk', -, x, y, da, db, r, e1, e2, e3, e4, e5, e6, e7, e8, e9⟩ | hn
      · have hn' : Still c n (Active.unlock a n k) (Active.unlock b n k) := hn
        have hall : Alike c t (Active.unlock a n k) (Active.unlock b n k) := ⟨htbs, hsbt, fun m => by
          by_cases hm : m = n
          · subst hm; exact .inl hn'
          · exact hother m hm⟩
        obtain ⟨o, g1, g2⟩ := read_still hn'
        rw [g1, g2]
        cases o with
        | ok => exact ⟨rfl, hall⟩
        | raised => exact ⟨rfl, hall⟩
        | all d f => exact ⟨rfl, hall⟩
        | val v =>
          dsimp only
          cases kd with
          | shared =>
            dsimp only
            have hv : (Active.unlock a n k).value n ≠ none := by
              have := read_value (c := c) (a := Active.unlock a n k) (n := n) (v := v) (by rw [g1])
              rw [g1] at this
              exact this
            refine hall.off ha hb k hk hv (fun hsh => ?_)
            obtain ⟨-, x, y, da, db, e1, e2, e3, e4, -⟩ := hsh
            have := hn'.2.2.2 hk hv
            rw [e3] at this; cases this
          | plain => exact ⟨rfl, hall⟩
          | linear =>
            dsimp only
            obtain ⟨r1, r2, r3, r4, -⟩ := record_same c (Active.unlock a n k) n .deactivating
            obtain ⟨s1, s2, s3, s4, -⟩ := record_same c (Active.unlock b n k) n .deactivating
            refine ⟨rfl, ?_, ?_, fun m => ?_⟩
            · simp only [Active.drop]; rw [r3, s3]; exact htbs
            · simp only [Active.drop]; rw [r4, s4]; exact hsbt
            · by_cases hm : m = n
              · subst hm
                left
                unfold Still
                simp only [Active.drop, upd_eq]
                rw [r1, s1]
                exact ⟨hn'.1, trivial, fun _ _ d hd => (by cases hd), fun _ _ => trivial⟩
              · refine other_state hm (hother m hm) ⟨?_, ?_, ?_⟩ ⟨?_, ?_⟩
                · simp only [Active.drop]; rw [r1]
                · simp only [Active.drop]; rw [upd_ne _ _ hm, r2]
                · simp only [Active.drop]; rw [r3]
                · simp only [Active.drop]; rw [s1]
                · simp only [Active.drop]; rw [upd_ne _ _ hm, s2]
      · obtain ⟨a', da', p1, p2, p3, p4, p5, p6, p7⟩ := read_runs (a := Active.unlock a n k) hk' e1 e3 e5 (by show da.started ≤ a.now; rw [ha]; exact e7)
        obtain ⟨b', db', q1, q2, q3, q4, q5, q6, q7⟩ := read_runs (a := Active.unlock b n k) hk' e2 e4 e6 (by show db.started ≤ b.now; rw [hb]; exact e8)
        have hna : (Active.unlock a n k).now = t := ha
        have hnb : (Active.unlock b n k).now = t := hb
        rw [hna] at p1 p2 p5
        rw [hnb] at q1 q2 q5
        rw [p1, q1]
        rw [hk] at hk'
        cases hk'
        dsimp only
        obtain ⟨r1, r2, r3, r4, -⟩ := record_same c a' n .deactivating
        obtain ⟨s1, s2, s3, s4, -⟩ := record_same c b' n .deactivating
        refine ⟨rfl, ?_, ?_, fun m => ?_⟩
        · simp only [Active.drop]; rw [r3, s3, p6, q6]; exact htbs
        · simp only [Active.drop]; rw [r4, s4, p7, q7]; exact hsbt
        · by_cases hm : m = n
          · subst hm
            left
            unfold Still
            simp only [Active.drop, upd_eq]
            rw [r1, s1, p2, q2, upd_eq, upd_eq, e9]
            exact ⟨rfl, trivial, fun _ _ d hd => (by cases hd), fun _ _ => trivial⟩
          · refine other_state hm (hother m hm) ⟨?_, ?_, ?_⟩ ⟨?_, ?_⟩
            · simp only [Active.drop]; rw [r1, p2, upd_ne _ _ hm]
            · simp only [Active.drop]; rw [upd_ne _ _ hm, r2, p3, upd_ne _ _ hm]
            · simp only [Active.drop]; rw [r3, p6]
            · simp only [Active.drop]; rw [s1, q2, upd_ne _ _ hm]
            · simp only [Active.drop]; rw [upd_ne _ _ hm, s2, q3, upd_ne _ _ hm]
      · have hall : Alike c t (Active.unlock a n k) (Active.unlock b n k) := ⟨htbs, hsbt, fun m => by
          by_cases hm : m = n
          · subst hm; exact .inr (.inr hn)
          · exact hother m hm⟩
        have hks := hn.1
        rw [hk] at hks
        cases hks
        obtain ⟨g1, g2⟩ := hall.read ha hb n
        have hva := @read_value c (Active.unlock a n k) n
        have hla := @read_last c t (Active.unlock a n k) n
        have hlb := @read_last c t (Active.unlock b n k) n
        have nA := read_now c (Active.unlock a n k) n
        have nB := read_now c (Active.unlock b n k) n
        rcases hA : Active.read c (Active.unlock a n k) n with ⟨a', o⟩
        rcases hB : Active.read c (Active.unlock b n k) n with ⟨b', o'⟩
        rw [hA] at g1 g2 hva hla nA
        rw [hB] at g1 g2 hlb nB
        dsimp only at g1 g2 hva hla hlb nA nB
        subst g1
        cases o with
        | val v =>
          dsimp only
          refine g2.off (nA.trans ha) (nB.trans hb) k hk (hva rfl) (fun hr => ?_)
          obtain ⟨-, x, y, da, db, e1, e2, e3, e4, -⟩ := hr
          exact ⟨da, db, e3, e4, hla hk ha rfl e3, hlb hk hb rfl e4⟩
        | ok => exact ⟨rfl, g2⟩
        | raised => exact ⟨rfl, g2⟩
        | all d f => exact ⟨rfl, g2⟩
    · rw [if_neg htb, if_neg htb]
      exact ⟨rfl, h⟩

theorem deactivate_now (c : Cfg) (s : Active.St) (n k : Nat) : (Active.deactivate c s n k).1.now = s.now := by
  unfold Active.deactivate
  cases hk : c.kind n with
  | none => rfl
  | some kd =>
    dsimp only
    split
    · have hr := read_now c (Active.unlock s n k) n
      rcases hA : Active.read c (Active.unlock s n k) n with ⟨a', o⟩
      rw [hA] at hr
      dsimp only at hr
      cases o with
      | val v =>
        cases kd with
        | shared =>
          simp only [Active.offShared]
          split
          · have h2 := read_now c (Active.setActive a' n a'.now none none (some ((((a'.active n).bind (·.rateTasks)).getD []).filter fun p => p.1 ≠ k)) none) n
            split
            · rename_i s2 v2 e
              rw [e] at h2
              split
              · exact h2.trans hr
              · exact h2.trans hr
            · rename_i s2 o2 _ e
              rw [e] at h2
              exact h2.trans hr
          · exact hr
        | plain => exact hr
        | linear =>
          simp only [Active.drop]
          rw [(record_same c a' n _).2.2.2.2]
          exact hr
      | ok => exact hr
      | raised => exact hr
      | all d f => exact hr
    · rfl

theorem Alike.deactivateList {c : Cfg} {t : Rat} (k : Nat) (ns : List Nat) {a b : Active.St} (h : Alike c t a b) (ha : a.now = t) (hb : b.now = t)
    (done : List Nat) : (Active.deactivateList c a k done ns).2 = (Active.deactivateList c b k done ns).2 ∧
      Alike c t (Active.deactivateList c a k done ns).1 (Active.deactivateList c b k done ns).1 := by
  induction ns generalizing a b done with
  | nil => exact ⟨rfl, h⟩
  | cons n ns ih =>
    unfold Active.deactivateList
    obtain ⟨g1, g2⟩ := h.deactivate ha hb n k
    have na := deactivate_now c a n k
    have nb := deactivate_now c b n k
    rcases hA : Active.deactivate c a n k with ⟨a', o⟩
    rcases hB : Active.deactivate c b n k with ⟨b', o'⟩
    rw [hA] at g1 g2 na
    rw [hB] at g1 g2 nb
    dsimp only at g1 g2 na nb
    subst g1
    cases o with
    | ok => exact ih g2 (na.trans ha) (nb.trans hb) _
    | val v => exact ⟨rfl, g2⟩
    | raised => exact ⟨rfl, g2⟩
    | all d f => exact ⟨rfl, g2⟩

/-- Actors with plain, linear changing and shared states are as `c77_predicts_partial` asks. -/
theorem c77_linear (c : Cfg) : Congruent (actor c) (Alike c) where
  later := fun t t' a b ht h => h.later ht
  step := fun t o a b h => by
    have h' : Alike c t { a with now := t } { b with now := t } := h
    cases o with
    | read n => exact h'.read rfl rfl n
    | change n f => exact h'.change rfl rfl n f
    | put n x => exact h'.put n x
    | activate n k r => exact h'.activate rfl rfl n k r
    | deactivate n k => exact h'.deactivate rfl rfl n k
    | deactivateAll k ord =>
      simp only [actor, acall, Active.deactivateAll]
      have e : (if ord.isPerm (b.sbt k) = true then ord else b.sbt k) = if ord.isPerm (a.sbt k) = true then ord else a.sbt k := by rw [h.2.1]
      rw [e]
      exact Alike.deactivateList k _ h' rfl rfl []
  read := fun t o a b ho h => by
    obtain ⟨n, rfl⟩ := ho
    have h' : Alike c t { a with now := t } b := h
    exact h'.look rfl n

/-- The understudy (actor.py 987-1042): has the values read at the time of the clone, and no active states. Simplified: a state without a value stays without one (there, `clone` raises), and that reading stores the
value of an active state of the actor is left out (`Alike.look`: it cannot be noticed). -/
def understudy (c : Cfg) (t : Rat) (a : Active.St) : Active.St where
  now := t
  value n := if c.kind n = none then a.value n else match (Active.read c { a with now := t } n).2 with
    | .val v => some v
    | _ => none
  active _ := none
  tbs _ := []
  sbt _ := []
  hist := a.hist

/-- Without active states the understudy is like the actor. -/
theorem c77_understudy {c : Cfg} (t : Rat) (a : Active.St) (h : ∀ n, a.active n = none) (htb : ∀ n, a.tbs n = []) (hsb : ∀ k, a.sbt k = []) :
    Alike c t a (understudy c t a) := by
  refine ⟨funext htb, funext hsb, fun n => .inl ⟨?_, h n, fun _ _ d hd => (by rw [h n] at hd; cases hd), fun _ _ => h n⟩⟩
  simp only [understudy, Active.read]
  cases hk : c.kind n with
  | none => simp
  | some k =>
    rw [if_neg (by simp)]
    cases k with
    | shared =>
      simp only [Active.readShared]
      rw [h n]
      cases a.value n <;> rfl
    | plain => dsimp only; cases a.value n <;> rfl
    | linear =>
      simp only [Active.readLinear]
      rw [h n]
      cases a.value n <;> rfl

end Verif.Predict
