import Verif.Drive.Guard
import Verif.Drive.Rehearse

/-! # C75: the invariant of proper runs -/

namespace Verif.Drive

open Verif.Queued (upd)

variable {P : Type}

/-- Starting a motion, of the actor as of one without a manager. -/
theorem activate_as (c : Cfg P) (x : World P × (Nat → Bool)) (h : Inv x) (a n : Nat) (v : ℝ) (ws : List P) (ha : a < x.1.count)
    (hp : Proper c x (.activate a n v ws)) :
    (Drive.activate c x.1 a n v ws).2 = .path (Path.step c.kind (x.1.loc a n) (.activate v ws)).2 ∧
      (Drive.activate c x.1 a n v ws).1.loc = (setLoc x.1 a n (Path.step c.kind (x.1.loc a n) (.activate v ws)).1).loc ∧
      (Drive.activate c x.1 a n v ws).1.count = x.1.count ∧ (Drive.activate c x.1 a n v ws).1.copy = x.1.copy ∧
      (Drive.activate c x.1 a n v ws).1.mgr.detect = x.1.mgr.detect ∧
      (∀ b, b ≠ a → (Drive.activate c x.1 a n v ws).1.mgr.movers.has b = x.1.mgr.movers.has b) ∧
      (x.1.copy a = false → x.1.mgr.detect a ≠ none →
        ((Drive.activate c x.1 a n v ws).1.mgr.movers.has a = true ↔ (Path.step c.kind (x.1.loc a n) (.activate v ws)).2 = .done)) := by
  obtain ⟨w, hid⟩ := x
  have hno : w.copy a = false → w.mgr.detect a ≠ none → w.mgr.movers.has a = false := by
    intro hc hd
    have h1 := (hp hc hd).1
    rw [Bool.eq_false_iff]
    intro hh
    obtain ⟨⟨m, A, hA, -⟩, -⟩ := (h.known a ha hc hd).1 hh
    exact h1 ⟨m, by dsimp only at hA ⊢; rw [hA]; simp⟩
  unfold Drive.activate
  dsimp only
  cases hs : Path.step c.kind (w.loc a n) (.activate v ws) with
  | mk τ o =>
    cases o with
    | done =>
      dsimp only
      cases hc : w.copy a with
      | true => exact ⟨rfl, rfl, rfl, rfl, rfl, fun _ _ => rfl, fun h => absurd h (by simp)⟩
      | false =>
        simp only [Bool.false_eq_true, if_false]
        obtain ⟨h1, h2, h3, h4⟩ := start_ok c.inter w.mgr a v ((w.loc a n).value :: ws) (hno hc) (fun hd => (hp hc hd).2)
        cases hm : Queued.startMover c.inter w.mgr a v ((w.loc a n).value :: ws) with
        | mk μ o =>
          rw [hm] at h1 h2 h3 h4
          dsimp only at h1 h2 h3 h4
          subst h1
          exact ⟨rfl, rfl, rfl, rfl, h2, h4, fun _ hd => by simp [h3 hd]⟩
    | error =>
      refine ⟨rfl, rfl, rfl, rfl, rfl, fun _ _ => rfl, fun hc hd => ?_⟩
      have := hno hc hd
      simp only [setLoc, this]
      simp
    | loc _ => exact absurd hs (by simp only [Path.step]; split <;> [skip; split] <;> simp)
    | list _ => exact absurd hs (by simp only [Path.step]; split <;> [skip; split] <;> simp)

/-- Ending a motion, of the actor as of one without a manager. -/
theorem deactivate_as (c : Cfg P) (x : World P × (Nat → Bool)) (h : Inv x) (a n : Nat) (ha : a < x.1.count)
    (hp : Proper c x (.deactivate a n)) :
    (Drive.deactivate c x.1 a n).2 = .path (Path.step c.kind (x.1.loc a n) .deactivate).2 ∧
      (Drive.deactivate c x.1 a n).1.loc = (setLoc x.1 a n (Path.step c.kind (x.1.loc a n) .deactivate).1).loc ∧
      (Drive.deactivate c x.1 a n).1.count = x.1.count ∧ (Drive.deactivate c x.1 a n).1.copy = x.1.copy ∧
      (Drive.deactivate c x.1 a n).1.mgr.detect = x.1.mgr.detect ∧
      (∀ b, b ≠ a → (Drive.deactivate c x.1 a n).1.mgr.movers.has b = x.1.mgr.movers.has b) ∧
      (x.1.copy a = false → x.1.mgr.detect a ≠ none →
        ((Drive.deactivate c x.1 a n).1.mgr.movers.has a = true ↔
          (Path.step c.kind (x.1.loc a n) .deactivate).2 ≠ .done ∧ x.1.mgr.movers.has a = true)) := by
  obtain ⟨w, hid⟩ := x
  have hself : ∀ τ, τ = w.loc a n → w.loc = (setLoc w a n τ).loc := by
    rintro τ rfl
    funext b m
    simp only [setLoc]
    split
    · rename_i h; rw [h.1, h.2]
    · rfl
  unfold Drive.deactivate
  simp only [Path.step]
  cases hl : (w.loc a n).locked with
  | false =>
    simp only [Bool.false_eq_true, if_false]
    exact ⟨trivial, hself _ rfl, trivial, trivial, trivial, fun _ _ => trivial, fun _ _ => by simp⟩
  | true =>
    simp only [if_true]
    cases hr : Path.read c.kind { w.loc a n with locked := false } with
    | mk τ o =>
      have key : o ≠ .error → w.copy a = false →
          (Queued.stopMover w.mgr a false).2 = .ok ∧ (w.mgr.detect a ≠ none → (Queued.stopMover w.mgr a false).1.movers.has a = false) ∧
          ∀ b, b ≠ a → (Queued.stopMover w.mgr a false).1.movers.has b = w.mgr.movers.has b := by
        intro ho hc
        refine stop_ok w.mgr a fun hd hh => ?_
        have hsh := h.shape a ha hc n
        have hrd := (read_keeps c.kind { w.loc a n with locked := false } (by
          rcases hsh with hx | hx
          · rw [hl] at hx; exact absurd hx.2 (by simp)
          · exact .inr hx)).2 (by rw [hr]; exact ho)
        have hdr : Driving (w.loc a n) := by
          rcases hrd with hx | hx
          · rcases hsh with hy | ⟨A, hA, -⟩
            · rw [hl] at hy; exact absurd hy.2 (by simp)
            · dsimp only at hx hA; rw [hA] at hx; exact absurd hx (by simp)
          · exact hx
        have hhid : hid a = true := by
          by_contra hcon
          have := (h.known a ha hc hd).2 ⟨⟨n, hdr⟩, by simpa using hcon⟩
          rw [hh] at this
          exact absurd this (by simp)
        exact hp hc hhid
      have fin : o ≠ .error → ∀ (oo : World P × Out P), oo = (if w.copy a = true then (setLoc w a n { τ with act := none }, Out.path .done)
          else match Queued.stopMover w.mgr a false with
            | (μ, .ok) => ({ setLoc w a n { τ with act := none } with mgr := μ }, .path .done)
            | (μ, _) => ({ setLoc w a n τ with mgr := μ }, .path .error)) →
          oo.2 = .path .done ∧ oo.1.loc = (setLoc w a n { τ with act := none }).loc ∧ oo.1.count = w.count ∧ oo.1.copy = w.copy ∧
            oo.1.mgr.detect = w.mgr.detect ∧ (∀ b, b ≠ a → oo.1.mgr.movers.has b = w.mgr.movers.has b) ∧
            (w.copy a = false → w.mgr.detect a ≠ none → (oo.1.mgr.movers.has a = true ↔ (Path.Out.done : Path.Out P) ≠ .done ∧ w.mgr.movers.has a = true)) := by
        rintro ho oo rfl
        cases hc : w.copy a with
        | true =>
          simp only [if_true]
          refine ⟨?_, ?_, ?_, ?_, ?_, fun _ _ => ?_, fun h => absurd h (by simp)⟩ <;> first | rfl | trivial
        | false =>
          simp only [Bool.false_eq_true, if_false]
          obtain ⟨h1, h2, h3⟩ := key ho hc
          have h4 := stopMover_detect w.mgr a false
          cases hm : Queued.stopMover w.mgr a false with
          | mk μ o =>
            rw [hm] at h1 h2 h3 h4
            dsimp only at h1 h2 h3 h4
            subst h1
            exact ⟨rfl, rfl, rfl, rfl, h4, h3, fun _ hd => by simp [h2 hd]⟩
      cases o with
      | error => exact ⟨rfl, rfl, rfl, rfl, rfl, fun _ _ => rfl, fun _ _ => by simp [setLoc]⟩
      | done => exact fin (by simp) _ rfl
      | loc p => exact fin (by simp) _ rfl
      | list p => exact fin (by simp) _ rfl

theorem Inv.init (t0 : ℝ) (n : Nat) (det : Nat → Option Bool) (val : Nat → Nat → P) : Inv (Drive.init t0 n det val, fun _ => false) := by
  refine ⟨fun a _ _ m => .inl ⟨rfl, rfl⟩, fun a _ _ _ m k h => absurd rfl h, fun a _ _ _ => ?_⟩
  constructor
  · intro h; exact absurd h (by simp [Drive.init, Queued.St.init, Dict.has])
  · rintro ⟨⟨m, A, hA, -⟩, -⟩
    exact absurd hA (by simp [Drive.init])

theorem plain_keeps (K : Path.Kind P) (σ : Path.St P) (hs : Shape σ) (o : Path.Op P) (ho : (∀ v ws, o ≠ .activate v ws) ∧ o ≠ .deactivate) :
    Keeps σ (Path.step K σ o).1 := by
  cases o with
  | activate v ws => exact absurd rfl (ho.1 v ws)
  | deactivate => exact absurd rfl ho.2
  | read => exact read_shape K σ hs
  | remaining => exact .refl _
  | assign p => exact ⟨rfl, rfl⟩
  | advance t => simp only [Path.step]; split <;> exact ⟨rfl, rfl⟩

theorem setLoc_keeps (w : World P) (a n : Nat) (τ : Path.St P) (hk : Keeps (w.loc a n) τ) (b m : Nat) : Keeps (w.loc b m) ((setLoc w a n τ).loc b m) := by
  simp only [setLoc]
  split
  · rename_i h; rw [h.1, h.2]; exact hk
  · exact .refl _

theorem readAll_keeps (c : Cfg P) (a : Nat) (l : List Nat) (w : World P) (hs : ∀ n, Shape (w.loc a n)) (b n : Nat) :
    Keeps (w.loc b n) ((readAll c w a l).1.loc b n) := by
  induction l generalizing w with
  | nil => exact .refl _
  | cons m l ih =>
    have h1 := setLoc_keeps w a m _ (read_shape c.kind (w.loc a m) (hs m))
    have h2 : ∀ k, Shape ((setLoc w a m (Path.read c.kind (w.loc a m)).1).loc a k) := fun k => (h1 a k).shape (hs k)
    simp only [readAll]
    cases hr : Path.read c.kind (w.loc a m) with
    | mk τ o =>
      rw [hr] at h1 h2
      cases o with
      | error => exact h1 b n
      | done => exact (h1 b n).trans (ih _ h2)
      | loc p => exact (h1 b n).trans (ih _ h2)
      | list p => exact (h1 b n).trans (ih _ h2)

theorem addSensor_movers (I : Queued.Inter ℝ P) (μ : Queued.St ℝ P) (s : Nat) : (Queued.addSensor I μ s).1.movers = μ.movers := by
  unfold Queued.addSensor
  exact find_movers _ _ _

theorem Inv.hid {w : World P} {f g : Nat → Bool} (h : Inv (w, f)) (hfg : ∀ a < w.count, g a = f a) : Inv (w, g) :=
  ⟨h.shape, h.one, fun a ha hc hd => by rw [show (w, g).2 a = f a from hfg a ha]; exact h.known a ha hc hd⟩

theorem Inv.activate (c : Cfg P) {w : World P} {hid : Nat → Bool} (h : Inv (w, hid)) (a n : Nat) (v : ℝ) (ws : List P) (ha : a < w.count)
    (hp : Proper c (w, hid) (.activate a n v ws)) : Inv ((Drive.activate c w a n v ws).1, upd hid a false) := by
  obtain ⟨-, h2, h3, h4, h5, h6, h7⟩ := activate_as c (w, hid) h a n v ws ha hp
  dsimp only at h2 h3 h4 h5 h6 h7
  have hne : ∀ b, b ≠ a → (Drive.activate c w a n v ws).1.loc b = w.loc b := fun b hb => by rw [h2]; exact setLoc_ne _ _ _ _ _ hb
  have hnm : ∀ m, m ≠ n → (Drive.activate c w a n v ws).1.loc a m = w.loc a m := fun m hm => by rw [h2]; simp [setLoc, hm]
  have hnn : (Drive.activate c w a n v ws).1.loc a n = (Path.step c.kind (w.loc a n) (.activate v ws)).1 := by rw [h2]; exact setLoc_self _ _ _ _
  have hst : w.copy a = false → ((w.loc a n).locked = true ∧ (Path.step c.kind (w.loc a n) (.activate v ws)) = (w.loc a n, .error)) ∨
      (w.loc a n).locked = false := by
    intro _
    cases hl : (w.loc a n).locked with
    | true => exact .inl ⟨rfl, by simp only [Path.step, hl, if_true]⟩
    | false => exact .inr rfl
  have hshape : w.copy a = false → Shape (Path.step c.kind (w.loc a n) (.activate v ws)).1 := by
    intro hc
    rcases hst hc with ⟨-, hx⟩ | hx
    · rw [hx]; exact h.shape a ha hc n
    · rcases start_idle c.kind (w.loc a n) hx v ws with ⟨h0, hws, -, hact⟩ | ⟨-, A, hA, hpath⟩
      · exact .inr ⟨_, hact, .inr ⟨h0, hws⟩⟩
      · exact .inr ⟨A, hA, .inl hpath⟩
  refine ⟨?_, ?_, ?_⟩
  · intro b hb hc m
    dsimp only at hb hc ⊢
    rw [h3] at hb
    rw [h4] at hc
    by_cases hba : b = a
    · subst hba
      by_cases hm : m = n
      · subst hm; rw [hnn]; exact hshape hc
      · rw [hnm m hm]; exact h.shape b hb hc m
    · rw [hne b hba]; exact h.shape b hb hc m
  · intro b hb hc hd m k
    dsimp only at hb hc hd ⊢
    rw [h3] at hb
    rw [h4] at hc
    rw [h5] at hd
    by_cases hba : b = a
    · subst hba
      have hno := (hp hc hd).1
      have hidle : ∀ j, j ≠ n → (w.loc b j).act = none := fun j _ => by
        by_contra hcon; exact hno ⟨j, hcon⟩
      intro hm hk
      have e1 : m = n := by
        by_contra hcon; rw [hnm m hcon, hidle m hcon] at hm; exact hm rfl
      have e2 : k = n := by
        by_contra hcon; rw [hnm k hcon, hidle k hcon] at hk; exact hk rfl
      rw [e1, e2]
    · rw [hne b hba]; exact h.one b hb hc hd m k
  · intro b hb hc hd
    dsimp only at hb hc hd ⊢
    rw [h3] at hb
    rw [h4] at hc
    rw [h5] at hd
    by_cases hba : b = a
    · subst hba
      have hno := (hp hc hd).1
      have hidle : ∀ j, (w.loc b j).act = none := fun j => by
        by_contra hcon; exact hno ⟨j, hcon⟩
      rw [h7 hc hd, Queued.upd_self]
      simp only [and_true]
      have hl : (w.loc b n).locked = false := by
        rcases h.shape b hb hc n with hx | ⟨A, hA, -⟩
        · exact hx.2
        · dsimp only at hA; rw [hidle n] at hA; exact absurd hA (by simp)
      constructor
      · intro hdone
        refine ⟨n, ?_⟩
        rw [hnn]
        rcases start_idle c.kind (w.loc b n) hl v ws with ⟨-, -, he, -⟩ | ⟨-, hdr⟩
        · rw [he] at hdone; exact absurd hdone (by simp)
        · exact hdr
      · rintro ⟨m, A, hA, hpath⟩
        by_cases hm : m = n
        · subst hm
          rw [hnn] at hA
          rcases start_idle c.kind (w.loc b m) hl v ws with ⟨-, -, -, hact⟩ | ⟨hdone, -⟩
          · rw [hact] at hA
            exact absurd rfl (by rw [← Option.some.inj hA] at hpath; exact hpath)
          · exact hdone
        · rw [hnm m hm, hidle m] at hA; exact absurd hA (by simp)
    · rw [h6 b hba, Queued.upd_ne _ _ hba, hne b hba]
      exact h.known b hb hc hd

theorem Inv.deactivate (c : Cfg P) {w : World P} {hid : Nat → Bool} (h : Inv (w, hid)) (a n : Nat) (ha : a < w.count)
    (hp : Proper c (w, hid) (.deactivate a n)) : Inv ((Drive.deactivate c w a n).1, hid) := by
  obtain ⟨-, h2, h3, h4, h5, h6, h7⟩ := deactivate_as c (w, hid) h a n ha hp
  dsimp only at h2 h3 h4 h5 h6 h7
  have hne : ∀ b, b ≠ a → (Drive.deactivate c w a n).1.loc b = w.loc b := fun b hb => by rw [h2]; exact setLoc_ne _ _ _ _ _ hb
  have hnm : ∀ m, m ≠ n → (Drive.deactivate c w a n).1.loc a m = w.loc a m := fun m hm => by rw [h2]; simp [setLoc, hm]
  have hnn : (Drive.deactivate c w a n).1.loc a n = (Path.step c.kind (w.loc a n) .deactivate).1 := by rw [h2]; exact setLoc_self _ _ _ _
  have hst : w.copy a = false → ((Path.step c.kind (w.loc a n) .deactivate).2 = .error ∧ (Path.step c.kind (w.loc a n) .deactivate).1.act = (w.loc a n).act ∧
      ((w.loc a n).act = none → (Path.step c.kind (w.loc a n) .deactivate).1.locked = false)) ∨
      ((Path.step c.kind (w.loc a n) .deactivate).2 = .done ∧ (Path.step c.kind (w.loc a n) .deactivate).1.act = none ∧
        (Path.step c.kind (w.loc a n) .deactivate).1.locked = false ∧ (w.loc a n).act ≠ none) := by
    intro hc
    simp only [Path.step]
    cases hl : (w.loc a n).locked with
    | false => simp only [Bool.false_eq_true, if_false]; exact .inl ⟨trivial, trivial, fun _ => hl⟩
    | true =>
      simp only [if_true]
      have hact : ∃ A, (w.loc a n).act = some A ∧ (A.path ≠ none ∨ (A.speed = 0 ∧ A.waypoints ≠ [])) := by
        rcases h.shape a ha hc n with hx | hx
        · dsimp only at hx; rw [hl] at hx; exact absurd hx.2 (by simp)
        · exact hx
      have hk := (read_keeps c.kind { w.loc a n with locked := false } (.inr hact)).1
      have hn : (w.loc a n).act ≠ none := by obtain ⟨A, hA, -⟩ := hact; rw [hA]; simp
      cases hr : Path.read c.kind { w.loc a n with locked := false } with
      | mk τ o =>
        rw [hr] at hk
        cases o with
        | error => exact .inl ⟨rfl, hk.1, fun _ => hk.2⟩
        | done => exact .inr ⟨rfl, rfl, hk.2, hn⟩
        | loc p => exact .inr ⟨rfl, rfl, hk.2, hn⟩
        | list p => exact .inr ⟨rfl, rfl, hk.2, hn⟩
  refine ⟨?_, ?_, ?_⟩
  · intro b hb hc m
    dsimp only at hb hc ⊢
    rw [h3] at hb
    rw [h4] at hc
    by_cases hba : b = a
    · subst hba
      by_cases hm : m = n
      · subst hm
        rw [hnn]
        rcases hst hc with ⟨-, hx, hl⟩ | ⟨-, hx, hl, -⟩
        · rcases h.shape b hb hc m with hy | hy
          · exact .inl ⟨by rw [hx]; exact hy.1, hl hy.1⟩
          · refine .inr ?_; rw [hx]; exact hy
        · exact .inl ⟨hx, hl⟩
      · rw [hnm m hm]; exact h.shape b hb hc m
    · rw [hne b hba]; exact h.shape b hb hc m
  · intro b hb hc hd m k
    dsimp only at hb hc hd ⊢
    rw [h3] at hb
    rw [h4] at hc
    rw [h5] at hd
    by_cases hba : b = a
    · subst hba
      have hle : ∀ j, ((Drive.deactivate c w b n).1.loc b j).act ≠ none → (w.loc b j).act ≠ none := by
        intro j hj
        by_cases hjn : j = n
        · subst hjn
          rw [hnn] at hj
          rcases hst hc with ⟨-, hx, -⟩ | ⟨-, -, -, hx⟩
          · rwa [hx] at hj
          · exact hx
        · rwa [hnm j hjn] at hj
      exact fun hm hk => h.one b hb hc hd m k (hle m hm) (hle k hk)
    · rw [hne b hba]; exact h.one b hb hc hd m k
  · intro b hb hc hd
    dsimp only at hb hc hd ⊢
    rw [h3] at hb
    rw [h4] at hc
    rw [h5] at hd
    by_cases hba : b = a
    · subst hba
      rw [h7 hc hd]
      rcases hst hc with ⟨he, hx, -⟩ | ⟨he, hx, -, hact⟩
      · have hdr : ∀ m, Driving ((Drive.deactivate c w b n).1.loc b m) ↔ Driving (w.loc b m) := by
          intro m
          by_cases hm : m = n
          · subst hm; rw [hnn]; unfold Driving; rw [hx]
          · rw [hnm m hm]
        rw [he]
        simp only [hdr, ne_eq, reduceCtorEq, not_false_eq_true, true_and]
        exact h.known b hb hc hd
      · rw [he]
        simp only [ne_eq, not_true_eq_false, false_and, false_iff]
        rintro ⟨⟨m, A, hA, -⟩, -⟩
        by_cases hm : m = n
        · subst hm; rw [hnn, hx] at hA; exact absurd hA (by simp)
        · rw [hnm m hm] at hA
          exact hm (h.one b hb hc hd m n (by dsimp only; rw [hA]; simp) hact)
    · rw [h6 b hba, hne b hba]
      exact h.known b hb hc hd

theorem Inv.detect (c : Cfg P) {w : World P} {hid : Nat → Bool} (h : Inv (w, hid)) (a : Nat) (v : Bool) :
    Inv ((Drive.detect w a v).1, (Drive.watch c (w, hid) (.detect a v)).2) := by
  obtain ⟨h1, h2, h3, h4, -⟩ := detect_effect w.mgr a v
  refine ⟨fun b hb hc m => h.shape b hb hc m, fun b hb hc hd m k => h.one b hb hc ?_ m k, fun b hb hc hd => ?_⟩
  · exact fun hcon => hd ((h1 b).2 hcon)
  · have hd' : w.mgr.detect b ≠ none := fun hcon => hd ((h1 b).2 hcon)
    have hk := h.known b hb hc hd'
    dsimp only at hk ⊢
    simp only [Drive.detect]
    cases v with
    | true => rw [h3 rfl]; exact hk
    | false =>
      by_cases hba : b = a
      · subst hba
        rw [h4 rfl hd']
        simp only [Bool.false_eq_true, false_iff, Drive.watch]
        rintro ⟨⟨m, A, hA, -⟩, hh⟩
        have hA' : (w.loc b m).act = some A := hA
        rw [if_pos ⟨m, by rw [hA']; simp⟩, Queued.upd_self] at hh
        exact absurd hh (by simp)
      · rw [h2 b hba, hk]
        simp only [Drive.watch]
        split
        · rw [Queued.upd_ne _ _ hba]
        · rfl

theorem readAll_real (c : Cfg P) {w : World P} {hid : Nat → Bool} (h : Inv (w, hid)) (a : Nat) (l : List Nat) (b : Nat) (hb : b < w.count) (hc : w.copy b = false) (n : Nat) :
    Keeps (w.loc b n) ((readAll c w a l).1.loc b n) := by
  by_cases hba : b = a
  · subst hba
    exact readAll_keeps c b l w (fun n => h.shape b hb hc n) b n
  · rw [(readAll_rest c a l w).2.2.2 b hba]; exact .refl _

theorem Inv.values (c : Cfg P) {w : World P} {hid : Nat → Bool} (h : Inv (w, hid)) (a : Nat) (l : List Nat) : Inv ((readAll c w a l).1, hid) := by
  obtain ⟨h1, h2, h3, -⟩ := readAll_rest c a l w
  refine h.same ?_ (fun b _ _ => by rw [h1]) (by rw [h1]) ?_
  · intro b hb hc; rw [h2] at hb; rw [h3] at hc; exact ⟨hb, hc⟩
  · intro b hb hc n; rw [h2] at hb; rw [h3] at hc; exact readAll_real c h a l b hb hc n

theorem Inv.clone (c : Cfg P) {w : World P} {hid : Nat → Bool} (h : Inv (w, hid)) (a : Nat) : Inv ((Drive.clone c w a).1, hid) := by
  have hv := h.values c a c.states
  unfold Drive.clone
  cases hr : Drive.readAll c w a c.states with
  | mk u o =>
    rw [hr] at hv
    cases o with
    | false => exact hv
    | true =>
      have hlt : ∀ b, b < u.count + 1 → upd u.copy u.count true b = false → b < u.count ∧ u.copy b = false := by
        intro b hb hc
        by_cases hbc : b = u.count
        · rw [hbc, Queued.upd_self] at hc; exact absurd hc (by simp)
        · rw [Queued.upd_ne _ _ hbc] at hc; exact ⟨by omega, hc⟩
      refine hv.same hlt ?_ rfl ?_
      · intro b hb hc
        exact Queued.upd_ne _ _ (by have := (hlt b hb hc).1; omega)
      · intro b hb hc n
        have := (hlt b hb hc).1
        dsimp only
        rw [if_neg (by omega)]
        exact .refl _

theorem Inv.plain (c : Cfg P) {w : World P} {hid : Nat → Bool} (h : Inv (w, hid)) (a n : Nat) (o : Path.Op P) (ha : a < w.count)
    (ho : (∀ v ws, o ≠ .activate v ws) ∧ o ≠ .deactivate) : Inv ((Drive.plain c w a n o).1, hid) := by
  refine h.same (fun b hb hc => ⟨hb, hc⟩) (fun _ _ _ => rfl) rfl ?_
  intro b hb hc m
  by_cases hba : b = a
  · subst hba
    exact setLoc_keeps w b n _ (plain_keeps c.kind _ (h.shape b ha hc n) o ho) b m
  · simp only [Drive.plain]
    rw [setLoc_ne _ _ _ _ _ hba]; exact .refl _

/-- **The invariant holds throughout proper runs.** -/
theorem Inv.watch (c : Cfg P) {x : World P × (Nat → Bool)} (h : Inv x) (o : Op P) (hp : Proper c x o) : Inv (Drive.watch c x o) := by
  obtain ⟨w, hid⟩ := x
  by_cases hr : ∃ a, o.actor = some a ∧ ¬ a < w.count
  · obtain ⟨a, ha, hlt⟩ := hr
    have hs : (Drive.step c w o).1 = w := by simp only [Drive.step, ha, if_neg hlt]
    simp only [Drive.watch, hs]
    refine h.hid fun b hb => ?_
    have hba : b ≠ a := by rintro rfl; exact hlt hb
    cases o with
    | activate a' n v ws =>
      obtain rfl : a' = a := Option.some.inj ha
      exact Queued.upd_ne _ _ hba
    | detect a' v =>
      obtain rfl : a' = a := Option.some.inj ha
      cases v with
      | true => rfl
      | false =>
        dsimp only
        split
        · exact Queued.upd_ne _ _ hba
        · rfl
    | _ => rfl
  · have hlt : ∀ a, o.actor = some a → a < w.count := fun a ha => by
      by_contra hc; exact hr ⟨a, ha, hc⟩
    have hs : Drive.step c w o = act c w o := by
      unfold Drive.step
      cases ha : o.actor with
      | none => rfl
      | some a => exact if_pos (hlt a ha)
    have hw : Drive.watch c (w, hid) o = ((act c w o).1, (Drive.watch c (w, hid) o).2) := by
      rw [← hs]; rfl
    rw [hw]
    cases o with
    | activate a n v ws => exact h.activate c a n v ws (hlt a rfl) hp
    | deactivate a n => exact h.deactivate c a n (hlt a rfl) hp
    | read a n => exact h.plain c a n .read (hlt a rfl) (by simp)
    | remaining a n => exact h.plain c a n .remaining (hlt a rfl) (by simp)
    | assign a n p => exact h.plain c a n (.assign p) (hlt a rfl) (by simp)
    | values a => exact h.values c a c.states
    | detect a v => exact h.detect c a v
    | clone a => exact h.clone c a
    | mock a t =>
      simp only [act]
      cases hc : w.copy a with
      | false => exact h
      | true =>
        simp only [if_true]
        refine h.same (fun b hb hc => ⟨hb, hc⟩) (fun _ _ _ => rfl) rfl ?_
        intro b hb hcb n
        have : b ≠ a := by rintro rfl; dsimp only at hcb; rw [hc] at hcb; exact absurd hcb (by simp)
        dsimp only
        rw [if_neg this]; exact .refl _
    | addSensor s =>
      have hd := detect_same c.inter w.mgr (.addSensor s) (by simp)
      exact h.same (fun b hb hc => ⟨hb, hc⟩) (fun a _ _ => congrFun hd a) (addSensor_movers _ _ _) (fun _ _ _ _ => .refl _)
    | fire i =>
      have hd := detect_same c.inter w.mgr (.fire i) (by simp)
      exact h.same (fun b hb hc => ⟨hb, hc⟩) (fun a _ _ => congrFun hd a) (fire_movers _ _) (fun _ _ _ _ => .refl _)
    | advance t =>
      have hd := detect_same c.inter w.mgr (.advance t) (by simp)
      have hm : (Queued.step c.inter w.mgr (.advance t)).1.movers = w.mgr.movers := by
        simp only [Queued.step]; split <;> rfl
      simp only [act]
      cases hq : Queued.step c.inter w.mgr (.advance t) with
      | mk μ o =>
        rw [hq] at hd hm
        cases o with
        | ok =>
          refine h.same (fun b hb hc => ⟨hb, hc⟩) (fun a _ _ => congrFun hd a) hm ?_
          intro b hb hc n
          dsimp only at hc ⊢
          rw [hc]
          exact ⟨rfl, rfl⟩
        | _ => exact h

theorem Inv.course (c : Cfg P) {w : World P} (h : Inv (w, fun _ => false)) {x : World P × (Nat → Bool)} (hx : Course c w x) : Inv x := by
  induction hx with
  | start => exact h
  | next o _ hp ih => exact ih.watch c o hp

end Verif.Drive
