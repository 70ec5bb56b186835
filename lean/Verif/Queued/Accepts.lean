import Verif.Queued.Cex

/-!
# C43: which paths are accepted

A detectable mover starts along a path without an error exactly when, for every sensor, the crossings the intersection model finds are
pairs of coming in (or starting inside) and going out (or ending inside), where a stay may go on from one leg to the next.
-/

namespace Verif.Queued

open Verif.Sphere (Tag)

variable {α L : Type} [Field α] [LinearOrder α]

/-- Coming in and going out by turns, with nothing left over. -/
def InOut : List Tag → Prop
  | [] => True
  | [_] => False
  | a :: b :: l => (a = .enter ∨ a = .startInside) ∧ (b = .exit ∨ b = .endInside) ∧ InOut l

theorem absorb_plain (base : α) (es : List (Entry α)) : ∀ acc : List (Entry α), (∀ e ∈ acc.head?, e.kind ≠ .endInside) →
    (∀ e ∈ es.dropLast, e.kind ≠ .endInside) → absorb base acc es = some ((es.map fun e => ⟨e.kind, base + e.time⟩).reverse ++ acc) := by
  induction es with
  | nil => intro acc _ _; simp [absorb]
  | cons e es ih =>
    intro acc h he
    have hstep : absorb base acc (e :: es) = absorb base (⟨e.kind, base + e.time⟩ :: acc) es := by
      cases acc with
      | nil => rw [absorb]
      | cons l acc => rw [absorb, if_neg (h l (by simp))]
    rw [hstep]
    cases es with
    | nil => simp [absorb]
    | cons e' es =>
      rw [ih _ (by intro x hx; simp only [List.head?_cons, Option.mem_some_iff] at hx; subst hx; exact he e (by simp))
        (fun x hx => he x (by simp only [List.dropLast_cons₂]; exact List.mem_cons_of_mem _ hx))]
      simp

theorem pairs_inOut (l : List (Entry α)) : (∃ ps, pairUp l = some ps ∧ ps.all valid = true) ↔ InOut (l.map (·.kind)) := by
  fun_induction pairUp l with
  | case1 => simp [InOut]
  | case2 => simp [InOut]
  | case3 a b l ih =>
    simp only [List.map_cons, InOut, ← ih]
    have hv : valid (a, b) = true ↔ (a.kind = .enter ∨ a.kind = .startInside) ∧ (b.kind = .exit ∨ b.kind = .endInside) := by
      cases ha : a.kind <;> cases hb : b.kind <;> simp [valid, ha, hb]
    cases pairUp l with
    | none => simp
    | some ps => simp only [Option.map_some, Option.some.injEq, exists_eq_left', List.all_cons, Bool.and_eq_true, hv, and_assoc]

theorem processPair_leg (I : Inter α L) (v t : α) (w w' : L) (s : Nat)
    (hend : ∀ r, I w w' v s = some r → ∀ e ∈ r.entries.dropLast, e.kind ≠ .endInside) :
    (processPair I ⟨v, [w, w'], t⟩ s).isSome ↔ ∃ r, I w w' v s = some r ∧ InOut (r.entries.map (·.kind)) := by
  cases h : I w w' v s with
  | none => simp [processPair, scan, h]
  | some r =>
    have ha := absorb_plain (t + 0) r.entries [] (by simp) (hend r h)
    simp only [processPair, scan, h, ha, List.append_nil, List.reverse_reverse, Option.some.injEq, exists_eq_left']
    have hk : r.entries.map (·.kind) = (r.entries.map fun e => (⟨e.kind, t + 0 + e.time⟩ : Entry α)).map (·.kind) := by simp
    rw [hk, ← pairs_inOut]
    cases pairUp (r.entries.map fun e => (⟨e.kind, t + 0 + e.time⟩ : Entry α)) with
    | none => simp
    | some ps =>
      simp only [Option.some.injEq, exists_eq_left']
      split
      · rename_i hv; simp only [hv, Option.isSome_some]
      · rename_i hv; simp only [hv, Option.isSome_none, Bool.false_eq_true]

theorem schedule_movers_eq (m s : Nat) (ps : List (Entry α × Entry α)) : ∀ σ : St α L, (ps.foldl (schedule m s) σ).movers = σ.movers := by
  induction ps with
  | nil => intro σ; rfl
  | cons p ps ih =>
    intro σ
    rw [List.foldl_cons, ih]
    unfold schedule
    split <;> rfl

theorem find_ok_iff (I : Inter α L) (m : Nat) (t : Trip α L) (ss : List Nat) : ∀ σ : St α L, σ.movers.get? m = some t →
    ((find I (ss.map fun s => (m, s)) σ).2 = .ok ↔ ∀ s ∈ ss, (processPair I t s).isSome) ∧
      ((find I (ss.map fun s => (m, s)) σ).2 = .ok ∨ (find I (ss.map fun s => (m, s)) σ).2 = .error) := by
  induction ss with
  | nil => intro σ _; simp [find]
  | cons s ss ih =>
    intro σ hm
    rw [List.map_cons, find_cons]
    cases hp : processPair I t s with
    | none =>
      have : findOne I σ m s = (σ, .error) := by simp [findOne, hm, hp]
      rw [this]
      simp [hp]
    | some ps =>
      have : findOne I σ m s = (ps.foldl (schedule m s) σ, .ok) := by simp [findOne, hm, hp]
      rw [this]
      have := ih (ps.foldl (schedule m s) σ) (by rw [schedule_movers_eq]; exact hm)
      simpa [hp] using this

/-- **C43, accepted paths.** In any state, a detectable mover that is not moving starts along a leg without an error exactly when the crossings
with every sensor are in and out by turns; otherwise starting raises. That a leg's crossings end with the first "ends inside" is assumed of the
intersection model. -/
theorem c43_accepted (I : Inter α L) (σ : St α L) (m : Nat) (v : α) (w w' : L) (hd : σ.detect m = some true) (hm : σ.movers.has m = false)
    (hend : ∀ s ∈ σ.sensors, ∀ r, I w w' v s = some r → ∀ e ∈ r.entries.dropLast, e.kind ≠ .endInside) :
    ((step I σ (.start m v [w, w'])).2 = .ok ↔ ∀ s ∈ σ.sensors, ∃ r, I w w' v s = some r ∧ InOut (r.entries.map (·.kind))) ∧
      ((step I σ (.start m v [w, w'])).2 = .ok ∨ (step I σ (.start m v [w, w'])).2 = .error) := by
  have hf := find_ok_iff I m ⟨v, [w, w'], σ.now⟩ σ.sensors { σ with movers := σ.movers.set m ⟨v, [w, w'], σ.now⟩ } (by simp)
  have hs : step I σ (.start m v [w, w']) = find I (σ.sensors.map fun s => (m, s)) { σ with movers := σ.movers.set m ⟨v, [w, w'], σ.now⟩ } := by
    simp [step, startMover, hd, hm]
  rw [hs]
  refine ⟨hf.1.trans ?_, hf.2⟩
  exact forall_congr' fun s => forall_congr' fun h => processPair_leg I v σ.now w w' s (hend s h)

/-- An intersection model that finds a way in and no way out on one leg. -/
def brokenI : Inter ℚ ℚ := fun w w' v s => if w = 5 then some ⟨[⟨.enter, 1⟩], 2⟩ else lineI w w' v s

example : line0.detect 1 = some true ∧ line0.movers.has 1 = false ∧ line0.sensors = [7] ∧
    (step brokenI line0 (.start 1 1 [-3, 3])).2 = .ok ∧ (step brokenI line0 (.start 1 1 [5, 7])).2 = .error ∧
    (∀ r, brokenI 5 7 1 7 = some r → ∀ e ∈ r.entries.dropLast, e.kind ≠ .endInside) := by
  refine ⟨by decide +kernel, by decide +kernel, by decide +kernel, by decide +kernel, by decide +kernel, ?_⟩
  intro r hr e he
  have : r = ⟨[⟨.enter, 1⟩], 2⟩ := by simpa [brokenI] using hr.symm
  subst this
  simp at he

/-! ## Paths of several legs -/

/-- The crossings found on the legs of a path, in order; `none` if the intersection model raises. -/
def crossings (I : Inter α L) (v : α) (s : Nat) : List L → Option (List Tag)
  | w :: w' :: ws => (I w w' v s).bind fun r => (crossings I v s (w' :: ws)).map (r.entries.map (·.kind) ++ ·)
  | _ => some []

/-- "Ends inside" is left out together with the "starts inside" of the next leg; something else after it is wrong. -/
def joined : List Tag → Option (List Tag)
  | [] => some []
  | [k] => some [k]
  | k :: k' :: l => if k = .endInside then if k' = .startInside then joined l else none else (joined (k' :: l)).map (k :: ·)

/-- The loop over the crossings, for the kinds alone. -/
def absorbK : List Tag → List Tag → Option (List Tag)
  | acc, [] => some acc
  | [], k :: ks => absorbK [k] ks
  | l :: acc, k :: ks => if l = .endInside then if k ≠ .startInside then none else absorbK acc ks else absorbK (k :: l :: acc) ks

theorem absorb_kinds (base : α) (acc es : List (Entry α)) :
    (absorb base acc es).map (List.map (·.kind)) = absorbK (acc.map (·.kind)) (es.map (·.kind)) := by
  fun_induction absorb base acc es with
  | case1 acc => cases acc <;> simp [absorbK]
  | case2 e es ih => rw [ih]; simp [absorbK]
  | case3 l acc e es hl he => simp [absorbK, hl, he]
  | case4 l acc e es hl he ih =>
    rw [ih]
    have he : e.kind = .startInside := by simpa using he
    simp [absorbK, hl, he]
  | case5 l acc e es hl ih => rw [ih]; simp [absorbK, hl]

theorem absorbK_append (acc a b : List Tag) : absorbK acc (a ++ b) = (absorbK acc a).bind (absorbK · b) := by
  induction a generalizing acc with
  | nil => cases acc <;> simp [absorbK]
  | cons k a ih =>
    cases acc with
    | nil => simpa [absorbK] using ih [k]
    | cons l acc =>
      simp only [List.cons_append, absorbK]
      split
      · split
        · rfl
        · exact ih acc
      · exact ih _

theorem absorbK_joined (ks : List Tag) : ∀ acc : List Tag, (∀ k ∈ acc, k ≠ .endInside) →
    absorbK acc ks = (joined ks).map fun l => l.reverse ++ acc := by
  fun_induction joined ks with
  | case1 => intro acc _; cases acc <;> simp [absorbK]
  | case2 k =>
    intro acc h
    cases acc with
    | nil => simp [absorbK]
    | cons l acc => simp [absorbK, h l (by simp)]
  | case3 l ih =>
    intro acc h
    have : absorbK acc (.endInside :: .startInside :: l) = absorbK acc l := by
      cases acc with
      | nil => simp [absorbK]
      | cons x acc => simp [absorbK, h x (by simp)]
    rw [this, ih acc h]
  | case4 k' l hk =>
    intro acc h
    cases acc with
    | nil => simp [absorbK, hk]
    | cons x acc => simp [absorbK, h x (by simp), hk]
  | case5 k k' l hk ih =>
    intro acc h
    have : absorbK acc (k :: k' :: l) = absorbK (k :: acc) (k' :: l) := by
      cases acc with
      | nil => rw [absorbK]
      | cons x acc => rw [absorbK, if_neg (h x (by simp))]
    rw [this, ih (k :: acc) (by intro x hx; rcases List.mem_cons.1 hx with rfl | hx; exacts [hk, h x hx])]
    cases joined (k' :: l) <;> simp

theorem scan_kinds (I : Inter α L) (v t : α) (s : Nat) (ws : List L) : ∀ (el : α) (acc : List (Entry α)),
    (scan I v t s ws el acc).map (List.map (·.kind)) = (crossings I v s ws).bind (absorbK (acc.map (·.kind))) := by
  induction ws with
  | nil => intro el acc; cases acc <;> simp [scan, crossings, absorbK]
  | cons w ws ih =>
    cases ws with
    | nil => intro el acc; cases acc <;> simp [scan, crossings, absorbK]
    | cons w' ws =>
      intro el acc
      simp only [scan, crossings]
      cases I w w' v s with
      | none => rfl
      | some r =>
        have ha := absorb_kinds (t + el) acc r.entries
        simp only [Option.bind_some]
        cases hx : absorb (t + el) acc r.entries with
        | none =>
          rw [hx] at ha
          cases crossings I v s (w' :: ws) with
          | none => rfl
          | some ks => simp [absorbK_append, ← ha]
        | some acc' =>
          rw [hx] at ha
          simp only [Option.map_some] at ha
          simp only
          rw [ih]
          cases crossings I v s (w' :: ws) with
          | none => rfl
          | some ks => simp [absorbK_append, ← ha]

theorem processPair_path (I : Inter α L) (v t : α) (ws : List L) (s : Nat) :
    (processPair I ⟨v, ws, t⟩ s).isSome ↔ ∃ ks, crossings I v s ws = some ks ∧ ∃ l, joined ks = some l ∧ InOut l := by
  have h := scan_kinds I v t s ws 0 []
  simp only [List.map_nil] at h
  simp only [processPair]
  cases hc : crossings I v s ws with
  | none =>
    rw [hc] at h
    cases hs : scan I v t s ws 0 [] with
    | none => simp
    | some acc => rw [hs] at h; cases h
  | some ks =>
    rw [hc, Option.bind_some, absorbK_joined ks [] (by simp)] at h
    simp only [Option.some.injEq, exists_eq_left']
    cases hs : scan I v t s ws 0 [] with
    | none =>
      rw [hs] at h
      cases hj : joined ks with
      | none => simp
      | some l => rw [hj] at h; cases h
    | some acc =>
      rw [hs] at h
      cases hj : joined ks with
      | none => rw [hj] at h; cases h
      | some l =>
        rw [hj] at h
        simp only [Option.map_some, Option.some.injEq, List.append_nil] at h
        have hl : l = acc.reverse.map (·.kind) := by rw [List.map_reverse, h, List.reverse_reverse]
        simp only [Option.some.injEq, exists_eq_left']
        rw [hl, ← pairs_inOut]
        cases pairUp acc.reverse with
        | none => simp
        | some ps =>
          simp only [Option.some.injEq, exists_eq_left']
          split
          · rename_i hv; simp only [hv, Option.isSome_some]
          · rename_i hv; simp only [hv, Option.isSome_none, Bool.false_eq_true]

/-- **C43, accepted paths.** In any state, a detectable mover that is not moving starts along a path without an error exactly when, for every
sensor, the intersection model raises on no leg, every "ends inside" is the last crossing or followed by "starts inside", and without those the
crossings are in and out by turns; otherwise starting raises. -/
theorem c43_accepted_path (I : Inter α L) (σ : St α L) (m : Nat) (v : α) (ws : List L) (hd : σ.detect m = some true) (hm : σ.movers.has m = false) :
    ((step I σ (.start m v ws)).2 = .ok ↔ ∀ s ∈ σ.sensors, ∃ ks, crossings I v s ws = some ks ∧ ∃ l, joined ks = some l ∧ InOut l) ∧
      ((step I σ (.start m v ws)).2 = .ok ∨ (step I σ (.start m v ws)).2 = .error) := by
  have hf := find_ok_iff I m ⟨v, ws, σ.now⟩ σ.sensors { σ with movers := σ.movers.set m ⟨v, ws, σ.now⟩ } (by simp)
  have hs : step I σ (.start m v ws) = find I (σ.sensors.map fun s => (m, s)) { σ with movers := σ.movers.set m ⟨v, ws, σ.now⟩ } := by
    simp [step, startMover, hd, hm]
  rw [hs]
  exact ⟨hf.1.trans (forall_congr' fun s => forall_congr' fun _ => processPair_path I v σ.now ws s), hf.2⟩

/-- In and out, in again over the end of a leg, and out; and a leg that begins as if the last had not ended inside. -/
example : crossings lineI 1 7 [-3, 3, 0, 3] = some [.enter, .exit, .enter, .endInside, .startInside, .exit] ∧
    joined [.enter, .exit, .enter, .endInside, .startInside, .exit] = some [.enter, .exit, .enter, .exit] ∧
    (step lineI line0 (.start 1 1 [-3, 3, 0, 3])).2 = .ok ∧ joined [.enter, .endInside, .enter, .exit] = none ∧
    (step (fun w w' v s => if w = 0 then lineI 3 0 v s else lineI w w' v s) line0 (.start 1 1 [3, 0, 3])).2 = .error := by decide +kernel

/-! ## Sensors added on the way -/

theorem find_ok_movers (I : Inter α L) (s : Nat) (ms : List Nat) : ∀ σ : St α L, (∀ m ∈ ms, (σ.movers.get? m).isSome) →
    ((find I (ms.map fun m => (m, s)) σ).2 = .ok ↔ ∀ m ∈ ms, ∀ t, σ.movers.get? m = some t → (processPair I t s).isSome) ∧
      ((find I (ms.map fun m => (m, s)) σ).2 = .ok ∨ (find I (ms.map fun m => (m, s)) σ).2 = .error) := by
  induction ms with
  | nil => intro σ _; simp [find]
  | cons m ms ih =>
    intro σ hm
    rw [List.map_cons, find_cons]
    obtain ⟨t, ht⟩ := Option.isSome_iff_exists.1 (hm m (by simp))
    cases hp : processPair I t s with
    | none =>
      have : findOne I σ m s = (σ, .error) := by simp [findOne, ht, hp]
      rw [this]
      refine ⟨⟨fun h => by simp at h, fun h => ?_⟩, .inr (by simp)⟩
      have := h m (by simp) t ht
      rw [hp] at this
      cases this
    | some ps =>
      have : findOne I σ m s = (ps.foldl (schedule m s) σ, .ok) := by simp [findOne, ht, hp]
      rw [this]
      have := ih (ps.foldl (schedule m s) σ) (by rw [schedule_movers_eq]; exact fun x hx => hm x (List.mem_cons_of_mem _ hx))
      rw [schedule_movers_eq] at this
      simp only [if_true]
      refine ⟨this.1.trans ⟨fun h x hx t' ht' => ?_, fun h x hx => h x (List.mem_cons_of_mem _ hx)⟩, this.2⟩
      rcases List.mem_cons.1 hx with rfl | hx
      · rw [ht] at ht'
        cases ht'
        rw [hp]
        rfl
      · exact h x hx t' ht'

/-- **C43, accepted sensors.** In any state, adding a sensor ends without an error exactly when its crossings with the path of every mover the
manager knows of are in and out by turns, as in `c43_accepted_path`; otherwise it raises. -/
theorem c43_accepted_sensor (I : Inter α L) (σ : St α L) (s : Nat) :
    ((step I σ (.addSensor s)).2 = .ok ↔
      ∀ m t, σ.movers.get? m = some t → ∃ ks, crossings I t.speed s t.waypoints = some ks ∧ ∃ l, joined ks = some l ∧ InOut l) ∧
      ((step I σ (.addSensor s)).2 = .ok ∨ (step I σ (.addSensor s)).2 = .error) := by
  have hk : ∀ m, m ∈ σ.movers.keys ↔ (σ.movers.get? m).isSome := fun m => by
    rw [← not_iff_not, ← Dict.get?_eq_none_iff]
    simp
  have hf := find_ok_movers I s σ.movers.keys { σ with sensors := if s ∈ σ.sensors then σ.sensors else σ.sensors ++ [s] } (fun m hm => (hk m).1 hm)
  refine ⟨hf.1.trans ⟨fun h m t ht => ?_, fun h m _ t ht => ?_⟩, hf.2⟩
  · exact (processPair_path I t.speed t.start t.waypoints s).1 (h m ((hk m).2 (by rw [ht]; rfl)) t ht)
  · exact (processPair_path I t.speed t.start t.waypoints s).2 (h m t ht)

example : let σ := run brokenI (St.init 0 fun _ => some true) [.start 1 1 [-3, 3], .start 2 1 [5, 7]]
    σ.movers.keys = [1, 2] ∧ (step brokenI σ (.addSensor 7)).2 = .error ∧
    (step brokenI (run brokenI σ [.stop 2]) (.addSensor 7)).2 = .ok := by decide +kernel

end Verif.Queued
