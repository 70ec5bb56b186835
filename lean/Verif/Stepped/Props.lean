import Verif.Stepped.Inv

/-! # C42 -/

namespace Verif.Stepped

theorem init_invA (det : Obj → Bool) (now : Rat) : InvA (St.init det now) :=
  ⟨List.nodup_nil, fun _ _ => by simp [St.init, Aware, said], fun _ _ => by simp [St.init, said, Alternates], fun _ h => (by cases h)⟩

theorem init_inv (det : Obj → Bool) (now : Rat) : Inv (St.init det now) := ⟨init_invA det now, fun _ _ h => (by cases h)⟩

/-- Operations that leave the pairs and the log alone. -/
theorem InvA.frame {σ τ : St} (h : InvA σ) (h1 : τ.view = σ.view) (h2 : τ.log = σ.log) : InvA τ :=
  ⟨by rw [h1]; exact h.nodup, by rw [h1, h2]; exact h.aware, by rw [h2]; exact h.alt, by rw [h2]; exact h.other⟩

theorem Inv.frame {σ τ : St} (h : Inv σ) (h1 : τ.view = σ.view) (h2 : τ.log = σ.log) (h3 : τ.det = σ.det) : Inv τ :=
  ⟨h.toInvA.frame h1 h2, by rw [h1, h3]; exact h.det⟩

theorem set_inv {σ : St} (h : Inv σ) (a : Obj) : Inv { σ with det := fun b => if b = a then true else σ.det b } :=
  ⟨h.toInvA.frame rfl rfl, fun s b hp => by
    show (if b = a then true else σ.det b) = true
    split
    · rfl
    · exact h.det s b hp⟩

theorem again_frame (c : Cfg) (n : Int) (empty : Bool) (σ : St) :
    (again c n empty σ).view = σ.view ∧ (again c n empty σ).log = σ.log ∧ (again c n empty σ).det = σ.det := by
  unfold again
  split <;> (try split) <;> exact ⟨rfl, rfl, rfl⟩

/-- What a round of the loop does to pairs, notifications and detectability. -/
theorem timer_eq (c : Cfg) (σ : St) (empty : Bool) (L : Look) (n : Int) (rest : List (Rat × Int))
    (hl : σ.loops = (σ.now, n) :: rest) :
    ∃ τ o, runDetectable L none { σ with loops := rest, checks := σ.checks ++ [(σ.now, empty)] } = (τ, o) ∧
      (step c σ (.timer empty L)).2 = o ∧ (step c σ (.timer empty L)).1 = (if o = .ok then again c n empty τ else τ) ∧
      (step c σ (.timer empty L)).1.view = τ.view ∧
      (step c σ (.timer empty L)).1.log = τ.log ∧ (step c σ (.timer empty L)).1.det = τ.det := by
  rcases hrun : runDetectable L none { σ with loops := rest, checks := σ.checks ++ [(σ.now, empty)] } with ⟨τ, o⟩
  refine ⟨τ, o, rfl, ?_⟩
  have hs : step c σ (.timer empty L) = (if o = .ok then again c n empty τ else τ, o) := by
    simp only [step, hl, ne_eq, not_true_eq_false, if_false, hrun]
    cases o <;> simp
  rw [hs]
  refine ⟨rfl, rfl, ?_⟩
  simp only
  split
  · exact again_frame c n empty τ
  · exact ⟨rfl, rfl, rfl⟩

theorem timer_other (c : Cfg) (σ : St) (empty : Bool) (L : Look)
    (hl : ∀ n rest, σ.loops ≠ (σ.now, n) :: rest) : step c σ (.timer empty L) = (σ, .refused) := by
  simp only [step]
  split
  · rfl
  · rename_i t n rest h
    rw [if_pos]
    rintro rfl
    exact hl n rest h

theorem timer_cases (σ : St) : (∃ n rest, σ.loops = (σ.now, n) :: rest) ∨ ∀ n rest, σ.loops ≠ (σ.now, n) :: rest := by
  by_cases h : ∃ n rest, σ.loops = (σ.now, n) :: rest
  · exact .inl h
  · exact .inr fun n rest hc => h ⟨n, rest, hc⟩

/-- Operations that call no sensor. -/
def Op.silent : Op → Prop
  | .setDetectable .. | .particular .. | .timer .. | .reorder .. => False
  | _ => True

theorem silent_frame (c : Cfg) (σ : St) (o : Op) (h : o.silent) :
    (step c σ o).1.view = σ.view ∧ (step c σ o).1.log = σ.log ∧ (step c σ o).1.det = σ.det := by
  cases o with
  | addSensor s ok => cases ok <;> exact ⟨rfl, rfl, rfl⟩
  | addDetectable a ok => cases ok <;> exact ⟨rfl, rfl, rfl⟩
  | startMover a ok =>
    simp only [step, addMover]
    split <;> split <;> (try split) <;> exact ⟨rfl, rfl, rfl⟩
  | stopMover a => exact ⟨rfl, rfl, rfl⟩
  | setDetectable a v L => exact h.elim
  | particular a L => exact h.elim
  | run => exact ⟨rfl, rfl, rfl⟩
  | beginRun =>
    simp only [step]
    split
    · exact ⟨rfl, rfl, rfl⟩
    · split
      · exact ⟨rfl, rfl, rfl⟩
      · split <;> exact ⟨rfl, rfl, rfl⟩
  | timer empty L => exact h.elim
  | advance t =>
    simp only [step]
    split <;> exact ⟨rfl, rfl, rfl⟩
  | reorder view => exact h.elim

theorem silent_invA (c : Cfg) (σ : St) (o : Op) (ho : o.silent) (h : InvA σ) : InvA (step c σ o).1 :=
  h.frame (silent_frame c σ o ho).1 (silent_frame c σ o ho).2.1

theorem silent_inv (c : Cfg) (σ : St) (o : Op) (ho : o.silent) (h : Inv σ) : Inv (step c σ o).1 :=
  h.frame (silent_frame c σ o ho).1 (silent_frame c σ o ho).2.1 (silent_frame c σ o ho).2.2

theorem step_invA (c : Cfg) (σ : St) (o : Op) (h : InvA σ) : InvA (step c σ o).1 := by
  cases o with
  | setDetectable a v L =>
    cases v with
    | true =>
      exact (runDetectable_invA L (some [a]) { σ with det := fun b => if b = a then true else σ.det b } (h.frame rfl rfl)).1
    | false => exact hide_invA h a
  | particular a L => exact (runDetectable_invA L (some [a]) _ h).1
  | timer empty L =>
    rcases timer_cases σ with ⟨n, rest, hl⟩ | hl
    · obtain ⟨τ, o, hr, -, -, h1, h2, h3⟩ := timer_eq c σ empty L n rest hl
      have := (runDetectable_invA L none { σ with loops := rest, checks := σ.checks ++ [(σ.now, empty)] } (h.frame rfl rfl)).1
      rw [hr] at this
      exact InvA.frame this h1 h2
    · rw [timer_other c σ empty L hl]; exact h
  | reorder view =>
    simp only [step]
    split
    · rename_i hp
      exact ⟨hp.nodup_iff.2 h.nodup, fun s a => (hp.mem_iff).trans (h.aware s a), h.alt, h.other⟩
    · exact h
  | _ => refine silent_invA c σ _ ?_ h; trivial

theorem exec_invA (c : Cfg) (os : List Op) (σ : St) (h : InvA σ) : InvA (exec c os σ) := by
  induction os generalizing σ with
  | nil => exact h
  | cons o os ih => exact ih _ (step_invA c σ o h)

/-- The sensors at an operation. -/
def Op.look? : Op → Option Look
  | .setDetectable _ true L => some L
  | .particular _ L => some L
  | .timer _ L => some L
  | _ => none

/-- No sensor hides objects when it is told of an entry. -/
def Op.Quiet (o : Op) : Prop := ∀ L, o.look? = some L → Verif.Stepped.Quiet L

theorem step_inv (c : Cfg) (σ : St) (o : Op) (hq : o.Quiet) (h : Inv σ) : Inv (step c σ o).1 := by
  cases o with
  | setDetectable a v L =>
    cases v with
    | true => exact (runDetectable_inv L (hq L rfl) (some [a]) _ (set_inv h a)).1
    | false => exact hide_inv h a
  | particular a L => exact (runDetectable_inv L (hq L rfl) (some [a]) _ h).1
  | timer empty L =>
    rcases timer_cases σ with ⟨n, rest, hl⟩ | hl
    · obtain ⟨τ, o, hr, -, -, h1, h2, h3⟩ := timer_eq c σ empty L n rest hl
      have := (runDetectable_inv L (hq L rfl) none { σ with loops := rest, checks := σ.checks ++ [(σ.now, empty)] } (h.frame rfl rfl rfl)).1
      rw [hr] at this
      exact Inv.frame this h1 h2 h3
    · rw [timer_other c σ empty L hl]; exact h
  | reorder view =>
    refine ⟨step_invA c σ _ h.toInvA, ?_⟩
    simp only [step]
    split
    · rename_i hp
      exact fun s a hm => h.det s a (hp.mem_iff.1 hm)
    · exact h.det
  | _ => refine silent_inv c σ _ ?_ h; trivial

theorem exec_inv (c : Cfg) (os : List Op) (hq : ∀ o ∈ os, o.Quiet) (σ : St) (h : Inv σ) : Inv (exec c os σ) := by
  induction os generalizing σ with
  | nil => exact h
  | cons o os ih => exact ih (fun o ho => hq o (List.mem_cons_of_mem _ ho)) _ (step_inv c σ o (hq o (List.mem_cons_self ..)) h)

/-- **C42, alternation.** In every history each sensor is told of each object: entered, exited, entered, … It is never told of
itself. -/
theorem c42_alternate (c : Cfg) (det : Obj → Bool) (now : Rat) (os : List Op) (s a : Obj) :
    Alternates true (said (exec c os (St.init det now)).log s a) ∧ (s = a → said (exec c os (St.init det now)).log s a = []) := by
  have h := exec_invA c os _ (init_invA det now)
  refine ⟨h.alt s a, fun hs => ?_⟩
  simp only [said, List.map_eq_nil_iff, List.filter_eq_nil_iff, decide_eq_true_eq, not_and]
  intro n hn h1 h2
  exact h.other n hn (by rw [h1, h2, hs])

/-- **C42, undetectable objects.** If no sensor hides objects when told of an entry, then at no time is a sensor's last word on an
undetectable object "entered". Missing: sensors that do (`c42_hidden_by_callback`). -/
theorem c42_undetectable_partial (c : Cfg) (det : Obj → Bool) (now : Rat) (os : List Op) (hq : ∀ o ∈ os, o.Quiet) (s a : Obj)
    (hd : (exec c os (St.init det now)).det a = false) : ¬ Aware (exec c os (St.init det now)).log s a := by
  have h := exec_inv c os hq _ (init_inv det now)
  intro ha
  have := h.det s a ((h.aware s a).2 ha)
  rw [hd] at this; cases this

/-- **C42, checks.** Likewise, after a check of all pairs, a sensor's last word on another known object is "entered" exactly when the
object is detectable and seen by the sensor. -/
theorem c42_after_check_partial (c : Cfg) (det : Obj → Bool) (now : Rat) (os : List Op) (hq : ∀ o ∈ os, o.Quiet) (empty : Bool) (L : Look)
    (hL : Quiet L) (σ : St) (hσ : σ = exec c os (St.init det now)) (hok : (step c σ (.timer empty L)).2 = .ok) (s a : Obj) (hs : s ∈ σ.sensors)
    (ha : a ∈ σ.detectables) (hsa : s ≠ a) :
    Aware (step c σ (.timer empty L)).1.log s a ↔ σ.det a = true ∧ L.sees s a = some true := by
  have h : Inv σ := by rw [hσ]; exact exec_inv c os hq _ (init_inv det now)
  have h' := step_invA c σ (.timer empty L) h.toInvA
  rcases timer_cases σ with ⟨n, rest, hl⟩ | hl
  · obtain ⟨τ, o, hr, ho, -, h1, h2, h3⟩ := timer_eq c σ empty L n rest hl
    have hi := runDetectable_inv L hL none { σ with loops := rest, checks := σ.checks ++ [(σ.now, empty)] } (h.frame rfl rfl rfl)
    rw [hr] at hi
    rw [ho] at hok
    rw [← h'.aware, h1]
    by_cases hd : σ.det a = true
    · simp only [hd, true_and]
      exact hi.2.2.2.1 hok s hs a (List.mem_filter.2 ⟨ha, hd⟩) hsa.symm
    · refine ⟨fun hw => ?_, fun hw => absurd hw.1 hd⟩
      have := hi.1.det s a hw
      rw [hi.2.1] at this
      exact absurd this hd
  · rw [timer_other c σ empty L hl] at hok; cases hok

/-- **C42, one object.** The same after a round of `run_particular`, and after the object becomes detectable. -/
theorem c42_after_particular_partial (c : Cfg) (det : Obj → Bool) (now : Rat) (os : List Op) (hq : ∀ o ∈ os, o.Quiet) (L : Look) (hL : Quiet L)
    (σ : St) (hσ : σ = exec c os (St.init det now)) (a : Obj) (hok : (step c σ (.particular a L)).2 = .ok) (s : Obj) (hs : s ∈ σ.sensors)
    (hsa : s ≠ a) : Aware (step c σ (.particular a L)).1.log s a ↔ σ.det a = true ∧ L.sees s a = some true := by
  have h : Inv σ := by rw [hσ]; exact exec_inv c os hq _ (init_inv det now)
  have h' := step_invA c σ (.particular a L) h.toInvA
  have hr := runDetectable_inv L hL (some [a]) σ h
  rw [← h'.aware]
  by_cases hd : σ.det a = true
  · simp only [hd, true_and]
    exact hr.2.2.2.1 hok s hs a (List.mem_filter.2 ⟨by simp, hd⟩) hsa.symm
  · refine ⟨fun hv => ?_, fun hw => absurd hw.1 hd⟩
    have := hr.1.det s a hv
    rw [hr.2.1] at this
    exact absurd this hd

theorem c42_after_appearing_partial (c : Cfg) (det : Obj → Bool) (now : Rat) (os : List Op) (hq : ∀ o ∈ os, o.Quiet) (L : Look) (hL : Quiet L)
    (σ : St) (hσ : σ = exec c os (St.init det now)) (a : Obj) (hok : (step c σ (.setDetectable a true L)).2 = .ok) (s : Obj)
    (hs : s ∈ σ.sensors) (hsa : s ≠ a) : Aware (step c σ (.setDetectable a true L)).1.log s a ↔ L.sees s a = some true := by
  have h : Inv σ := by rw [hσ]; exact exec_inv c os hq _ (init_inv det now)
  have h' := step_invA c σ (.setDetectable a true L) h.toInvA
  have hr := runDetectable_inv L hL (some [a]) _ (set_inv h a)
  rw [← h'.aware]
  exact hr.2.2.2.1 hok s hs a (List.mem_filter.2 ⟨by simp, by simp⟩) hsa.symm

/-- **C42, hiding.** In every history, when an object becomes undetectable, every sensor that was told of its entry is told of its
exit, at once and whether or not the object is still being checked; the others are told nothing. -/
theorem c42_after_hiding (c : Cfg) (det : Obj → Bool) (now : Rat) (os : List Op) (L : Look)
    (σ : St) (hσ : σ = exec c os (St.init det now)) (a s : Obj) :
    (step c σ (.setDetectable a false L)).2 = .ok ∧ (step c σ (.setDetectable a false L)).1.det a = false ∧
    said (step c σ (.setDetectable a false L)).1.log s a = said σ.log s a ++ (if (said σ.log s a).getLast? = some true then [false] else []) ∧
      ∀ b, b ≠ a → said (step c σ (.setDetectable a false L)).1.log s b = said σ.log s b := by
  have h : InvA σ := by rw [hσ]; exact exec_invA c os _ (init_invA det now)
  have key : ∀ b, said (step c σ (.setDetectable a false L)).1.log s b = said σ.log s b ++ if b = a ∧ (s, a) ∈ σ.view then [false] else [] :=
    fun b => said_hide h a s b
  refine ⟨rfl, by simp [step, hide, moverNotDetectable], ?_, fun b hb => ?_⟩
  · rw [key]
    congr 1
    by_cases hv : (s, a) ∈ σ.view
    · have hw : (said σ.log s a).getLast? = some true := (h.aware s a).1 hv
      rw [if_pos ⟨rfl, hv⟩, if_pos hw]
    · have hw : ¬ (said σ.log s a).getLast? = some true := fun hc => hv ((h.aware s a).2 hc)
      rw [if_neg (fun hc => hv hc.2), if_neg hw]
  · rw [key, if_neg (fun hc => hb hc.1), List.append_nil]

/-- **C42, truth.** Every new notification is true: "entered" of an object that is detectable and seen by the sensor; "exited" of an
object that is not seen or has just become undetectable. -/
theorem c42_truthful_partial (c : Cfg) (det : Obj → Bool) (now : Rat) (os : List Op) (hq : ∀ o ∈ os, o.Quiet) (o : Op) (ho : o.Quiet) (σ : St)
    (hσ : σ = exec c os (St.init det now)) :
    ∃ new, (step c σ o).1.log = σ.log ++ new ∧ ∀ n ∈ new,
      (n.entered = true → (step c σ o).1.det n.object = true ∧ ∃ L, o.look? = some L ∧ L.sees n.sensor n.object = some true) ∧
      (n.entered = false → (∃ L, o.look? = some L ∧ L.sees n.sensor n.object = some false) ∨ ∃ L, o = .setDetectable n.object false L) := by
  have h : Inv σ := by rw [hσ]; exact exec_inv c os hq _ (init_inv det now)
  have none' : ∀ τ : St, τ.log = σ.log → ∃ new, τ.log = σ.log ++ new ∧ ∀ n ∈ new,
      (n.entered = true → τ.det n.object = true ∧ ∃ L, o.look? = some L ∧ L.sees n.sensor n.object = some true) ∧
      (n.entered = false → (∃ L, o.look? = some L ∧ L.sees n.sensor n.object = some false) ∨ ∃ L, o = .setDetectable n.object false L) :=
    fun τ h => ⟨[], by simp [h], by simp⟩
  have some' : ∀ (τ υ : St) L req, Inv υ → υ.log = σ.log → o.look? = some L → τ.log = (runDetectable L req υ).1.log →
      τ.det = (runDetectable L req υ).1.det →
      ∃ new, τ.log = σ.log ++ new ∧ ∀ n ∈ new,
      (n.entered = true → τ.det n.object = true ∧ ∃ L, o.look? = some L ∧ L.sees n.sensor n.object = some true) ∧
      (n.entered = false → (∃ L, o.look? = some L ∧ L.sees n.sensor n.object = some false) ∨ ∃ L, o = .setDetectable n.object false L) := by
    intro τ υ L req hυ h1 h2 h3 h4
    obtain ⟨-, q2, ⟨new, q3, q4⟩, -⟩ := runDetectable_inv L (ho L h2) req υ hυ
    refine ⟨new, by rw [h3, q3, h1], fun n hn => ?_⟩
    obtain ⟨n1, n2⟩ := q4 n hn
    rw [h4, q2]
    exact ⟨fun he => ⟨n1, L, h2, by rw [n2, he]⟩, fun he => .inl ⟨L, h2, by rw [n2, he]⟩⟩
  cases o with
  | setDetectable a v L =>
    cases v with
    | true => exact some' _ _ L (some [a]) (set_inv h a) rfl rfl rfl rfl
    | false =>
      refine ⟨_, rfl, fun n hn => ?_⟩
      simp only [List.mem_map, List.mem_filter, decide_eq_true_eq] at hn
      obtain ⟨p, -, rfl⟩ := hn
      exact ⟨fun hc => (by cases hc), fun _ => .inr ⟨L, rfl⟩⟩
  | particular a L => exact some' _ _ L (some [a]) h rfl rfl rfl rfl
  | timer empty L =>
    rcases timer_cases σ with ⟨n, rest, hl⟩ | hl
    · obtain ⟨τ, o', hr, -, -, h1, h2, h3⟩ := timer_eq c σ empty L n rest hl
      exact some' _ { σ with loops := rest, checks := σ.checks ++ [(σ.now, empty)] } L none (h.frame rfl rfl rfl) rfl rfl
        (by rw [h2, hr]) (by rw [h3, hr])
    · exact none' _ (by rw [timer_other c σ empty L hl])
  | reorder view =>
    apply none'
    simp only [step]
    split <;> rfl
  | _ => refine none' _ (silent_frame c σ _ ?_).2.1; trivial

/-! ### A history -/

/-- Sensors 0 and 1, objects 1 (a sensor itself), 2 and 3. -/
def setup : List Op := [.addSensor 0 true, .addSensor 1 true, .addDetectable 1 true, .addDetectable 2 true, .startMover 3 true, .beginRun, .advance 1]

def far : Look := ⟨fun _ _ => some false, fun _ _ => [], true⟩
/-- Sensor 0 sees everything; sensor 1 sees object 3. -/
def near : Look := ⟨fun s a => some (s = 0 ∨ a = 3), fun _ _ => [], true⟩
/-- Sensor 0 shoots object 3 when it sees it. -/
def shoot : Look := ⟨near.sees, fun s a => if s = 0 ∧ a = 3 then [3] else [], true⟩

def cfg : Cfg := ⟨1, 3⟩

/-- Everything is told once; object 2 hides, shows itself again, and all go away. -/
example : (exec cfg (setup ++ [.timer false near, .setDetectable 2 false far, .advance 2, .timer false near, .setDetectable 2 true near, .advance 3, .timer true far])
    (St.init (fun _ => true) 0)).log =
    [⟨0, 1, true⟩, ⟨0, 2, true⟩, ⟨0, 3, true⟩, ⟨1, 3, true⟩, ⟨0, 2, false⟩, ⟨0, 2, true⟩, ⟨0, 1, false⟩, ⟨0, 2, false⟩, ⟨0, 3, false⟩, ⟨1, 3, false⟩] := by decide +kernel

theorem setup_quiet : ∀ o ∈ setup, o.Quiet := by
  intro o ho L hL
  simp only [setup, List.mem_cons, List.not_mem_nil, or_false] at ho
  rcases ho with rfl | rfl | rfl | rfl | rfl | rfl | rfl <;> cases hL

theorem near_quiet : Quiet near := fun _ _ => rfl

/-- The hypotheses of `c42_after_check_partial`. -/
example : Aware (step cfg (exec cfg setup (St.init (fun _ => true) 0)) (.timer false near)).1.log 0 3 :=
  (c42_after_check_partial cfg (fun _ => true) 0 setup setup_quiet false near near_quiet _ rfl (by decide +kernel) 0 3 (by decide +kernel)
    (by decide +kernel) (by decide)).2 (by decide +kernel)

/-- Those of `c42_after_particular_partial` and `c42_after_appearing_partial`. -/
example : (step cfg (exec cfg setup (St.init (fun _ => true) 0)) (.particular 2 near)).2 = .ok ∧
    (step cfg (exec cfg setup (St.init (fun _ => false) 0)) (.setDetectable 2 true near)).2 = .ok := by decide +kernel

/-- **C42 is violated: a sensor that makes an object undetectable when it is told of its entry.** The sensors after it in the same
check are told that the object has entered although it is no longer detectable, and are not told otherwise at any later check. -/
theorem c42_hidden_by_callback :
    (exec cfg (setup ++ [.timer false shoot]) (St.init (fun _ => true) 0)).det 3 = false ∧
    Aware (exec cfg (setup ++ [.timer false shoot]) (St.init (fun _ => true) 0)).log 1 3 ∧
    Aware (exec cfg (setup ++ [.timer false shoot, .advance 2, .timer false shoot, .advance 3, .timer false far]) (St.init (fun _ => true) 0)).log 1 3 := by
  unfold Aware
  decide +kernel

end Verif.Stepped
