import Verif.Windowed.Frame
import Mathlib.Data.List.Chain
import Mathlib.Algebra.Order.Ring.Rat
import Mathlib.Tactic.Linarith

/-! # The invariant of a windowed get -/

namespace Verif.Windowed

open Verif.Store (Cfg St Ev doGet doPut doInterrupt doProcess doAdvance Ids getIds putIds inflight trigPut trigGet enqPut enqGet)

variable {ι γ ν : Type} [DecidableEq ν]

/-- The item from which the window is measured: the first, or the last if each one restarts it. -/
def anchor (reset : Bool) (taken : List (Rat × ι)) : Option (Rat × ι) := if reset then taken.getLast? else taken.head?

/-- The routine is over or cleaning up. -/
def Phase.over : Phase → Bool
  | .returning | .finished | .cancelled => true
  | _ => false

structure Inv (p : Par γ) (w : W ι γ ν) : Prop where
  ids : Ids w.st
  lt : ∀ i ∈ w.mine ++ w.back.map (·.1), i < w.st.nextId
  idle : w.phase = .idle → w.mine = [] ∧ w.taken = [] ∧ w.deadline = none ∧ w.fired = false
  curM : w.phase ≠ .idle → w.cur ∈ w.mine
  older : ∀ i ∈ w.mine, i ≠ w.cur → i ∈ w.st.delivered.map (·.1)
  curW : w.phase = .waiting → w.cur ∈ w.st.waiting ∧ w.cur ∈ getIds w.st ∧ w.cur ∉ w.st.lost.map (·.1)
  dead : w.phase.over = true → w.cur ∉ w.st.waiting ∧ w.cur ∉ w.st.delivered.map (·.1)
  gotN : w.cur ∉ w.st.delivered.map (·.1) ∨ w.phase = .idle → (mineOf w.mine w.st.delivered).map (·.2) = w.taken.map (·.2)
  gotS : w.phase = .waiting → ∀ x, (w.cur, x) ∈ w.st.delivered → (mineOf w.mine w.st.delivered).map (·.2) = w.taken.map (·.2) ++ [x]
  condN : w.phase = .waiting → w.cond = none → w.cur ∉ w.st.delivered.map (·.1)
  condS : w.phase = .waiting → w.cond ≠ none → w.cur ∉ w.st.delivered.map (·.1) → w.fired = true
  condF : w.phase = .waiting → w.fired = true → w.cond ≠ none
  res : w.taken.map (·.2) = w.back.map (·.2) ++ w.result
  need : w.need = true ↔ w.taken ≠ []
  dl0 : w.phase = .waiting → w.taken = [] → w.deadline = none ∧ w.fired = false
  dl1 : w.phase = .waiting → w.taken ≠ [] → ∃ a, anchor p.reset w.taken = some a ∧ w.deadline = some (a.1 + p.timeout) ∧
    w.st.now ≤ a.1 + p.timeout ∧ (w.fired = true → w.st.now = a.1 + p.timeout)
  past : ∀ q ∈ w.taken, q.1 ≤ w.st.now
  chain : w.taken.IsChain fun a b => a.1 ≤ b.1 ∧ (p.reset = true → b.1 ≤ a.1 + p.timeout)
  within : p.reset = false → ∀ a ∈ w.taken.head?, ∀ q ∈ w.taken, q.1 ≤ a.1 + p.timeout
  pos : w.phase = .waiting → w.taken ≠ [] → 0 ≤ p.timeout
  fin : w.phase = .finished → w.returned = some w.result ∧ ∃ a, anchor p.reset w.taken = some a ∧ w.endAt = some (a.1 + p.timeout)
  unfin : w.phase ≠ .finished → w.returned = none
  noback : w.phase = .idle ∨ w.phase = .waiting ∨ w.phase = .finished → w.back = []
  puts : mineOf (w.back.map (·.1)) (w.st.accepted ++ w.st.putQ) = w.back
  backA : ∀ i ∈ w.back.map (·.1), i ≠ w.putId ∨ w.phase = .cancelled → i ∈ w.st.accepted.map (·.1)
  canc : w.phase = .cancelled → w.result = []

theorem Inv.init (p : Par γ) {s : St ι γ ν} (h : Ids s) : Inv p (init s) := by
  constructor <;> simp [Verif.Windowed.init, mineOf, h, Phase.over]

/-- Operations of others. -/
theorem Inv.frame {p : Par γ} {w : W ι γ ν} (h : Inv p w) {s' : St ι γ ν} (cond' : Option Nat) (hi : Ids s')
    (hf : Frame w.mine (w.back.map (·.1)) w.st s') (hc : cond' = none ↔ w.cond = none)
    (hn : w.st.now ≤ s'.now) (hd : w.phase = .waiting → s'.now = w.st.now ∨ w.fired = false ∧ ∀ d ∈ w.deadline, s'.now ≤ d) :
    Inv p { w with st := s', cond := cond' } := by
  have hdm : ∀ i ∈ w.mine, (i ∈ s'.delivered.map (·.1) ↔ i ∈ w.st.delivered.map (·.1)) := by
    intro i hi
    have : ∀ (l : List (Nat × ι)), i ∈ l.map (·.1) ↔ i ∈ (mineOf w.mine l).map (·.1) := by
      intro l
      simp only [List.mem_map, mem_mineOf]
      constructor
      · rintro ⟨q, hq, rfl⟩; exact ⟨q, ⟨hq, hi⟩, rfl⟩
      · rintro ⟨q, ⟨hq, -⟩, rfl⟩; exact ⟨q, hq, rfl⟩
    rw [this s'.delivered, this w.st.delivered, hf.del]
  have hcm : w.phase ≠ .idle → (w.cur ∈ s'.delivered.map (·.1) ↔ w.cur ∈ w.st.delivered.map (·.1)) := fun hp => hdm _ (h.curM hp)
  refine ⟨hi, fun i hi => lt_of_lt_of_le (h.lt i hi) hf.nxt, h.idle, h.curM, fun i hi hne => (hdm i hi).2 (h.older i hi hne),
    fun hp => ?_, fun hp => ?_, ?_, ?_, ?_, ?_, ?_, h.res, h.need, h.dl0, ?_, fun q hq => le_trans (h.past q hq) hn, h.chain, h.within, h.pos, h.fin,
    h.unfin, h.noback, ?_, fun i hi hp => hf.acc i (h.backA i hi hp), h.canc⟩
  · have hm := h.curM (by rw [hp]; decide)
    obtain ⟨a, b, c⟩ := h.curW hp
    exact ⟨(hf.wai _ hm).2 a, (hf.gid _ hm).2 b, fun hc => c ((hf.los _ hm a).1 hc)⟩
  · have hpi : w.phase ≠ .idle := by rintro he; rw [he] at hp; cases hp
    exact ⟨fun hc => (h.dead hp).1 ((hf.wai _ (h.curM hpi)).1 hc), fun hc => (h.dead hp).2 ((hcm hpi).1 hc)⟩
  · intro hor
    show (mineOf w.mine s'.delivered).map (·.2) = _
    rw [hf.del]
    refine h.gotN ?_
    by_cases hp : w.phase = .idle
    · exact .inr hp
    · exact .inl fun hc => hor.elim (fun hx => hx ((hcm hp).2 hc)) hp
  · intro hp x hx
    show (mineOf w.mine s'.delivered).map (·.2) = _
    rw [hf.del]
    refine h.gotS hp x ?_
    have hm := h.curM (by rw [hp]; decide)
    have : (w.cur, x) ∈ mineOf w.mine s'.delivered := mem_mineOf.2 ⟨hx, hm⟩
    rw [hf.del] at this
    exact (mem_mineOf.1 this).1
  · intro hp hcn hx
    exact h.condN hp (hc.1 hcn) ((hcm (by rw [hp]; decide)).1 hx)
  · intro hp hcn hx
    exact h.condS hp (fun he => hcn (hc.2 he)) (fun hx' => hx ((hcm (by rw [hp]; decide)).2 hx'))
  · intro hp hfi hcn
    exact h.condF hp hfi (hc.1 hcn)
  · intro hp ht
    obtain ⟨a, h1, h2, h3, h4⟩ := h.dl1 hp ht
    refine ⟨a, h1, h2, ?_, ?_⟩
    · rcases hd hp with he | ⟨-, he⟩
      · show s'.now ≤ _; rw [he]; exact h3
      · exact he _ h2
    · intro hfi
      rcases hd hp with he | ⟨he, -⟩
      · show s'.now = _; rw [he]; exact h4 hfi
      · rw [he] at hfi; cases hfi
  · show mineOf _ (s'.accepted ++ s'.putQ) = _
    rw [hf.puts]; exact h.puts

theorem find_none {l : List (Nat × ι)} {i : Nat} : (l.find? fun d => d.1 == i) = none ↔ i ∉ l.map (·.1) := by
  simp only [List.find?_eq_none, List.mem_map, not_exists, not_and]
  constructor
  · intro h q hq he; exact h q hq (by simp [he])
  · intro h q hq he; exact h q hq (by simpa using he)

theorem valueOf_none {s : St ι γ ν} {i : Nat} : valueOf s i = none ↔ i ∉ s.delivered.map (·.1) := by
  unfold valueOf; rw [Option.map_eq_none_iff]; exact find_none

theorem valueOf_some {s : St ι γ ν} {i : Nat} {x : ι} (h : valueOf s i = some x) : (i, x) ∈ s.delivered := by
  unfold valueOf at h
  obtain ⟨q, hq, rfl⟩ := Option.map_eq_some_iff.1 h
  have h1 := List.mem_of_find?_eq_some hq
  have h2 : q.1 = i := by simpa using List.find?_some hq
  rw [← h2]; exact h1

/-- A round adds a request to a routine whose items are all accounted for. -/
theorem Inv.request {c : Cfg ι γ ν} {p : Par γ} {w : W ι γ ν} (hids : Ids w.st) (hlt : ∀ i ∈ w.mine, i < w.st.nextId) (hb : w.back = [])
    (hold : ∀ i ∈ w.mine, i ∈ w.st.delivered.map (·.1)) (hgot : (mineOf w.mine w.st.delivered).map (·.2) = w.taken.map (·.2))
    (hres : w.taken.map (·.2) = w.result) (hneed : w.need = true ↔ w.taken ≠ [])
    (h0 : w.taken = [] → w.deadline = none ∧ w.fired = false)
    (h1 : w.taken ≠ [] → ∃ a, anchor p.reset w.taken = some a ∧ w.deadline = some (a.1 + p.timeout) ∧
      w.st.now ≤ a.1 + p.timeout ∧ (w.fired = true → w.st.now = a.1 + p.timeout))
    (hpast : ∀ q ∈ w.taken, q.1 ≤ w.st.now) (hchain : w.taken.IsChain fun a b => a.1 ≤ b.1 ∧ (p.reset = true → b.1 ≤ a.1 + p.timeout))
    (hwithin : p.reset = false → ∀ a ∈ w.taken.head?, ∀ q ∈ w.taken, q.1 ≤ a.1 + p.timeout) (hpos : w.taken ≠ [] → 0 ≤ p.timeout)
    (hret : w.returned = none) : Inv p (request c p w) := by
  have hd : (doGet c w.st p.g).delivered = w.st.delivered := (trigGet_same c (enqGet w.st p.g)).1
  have hl : (doGet c w.st p.g).lost = w.st.lost := (trigGet_same c (enqGet w.st p.g)).2.1
  have hw : (doGet c w.st p.g).waiting = w.st.waiting ++ [w.st.nextId] := (trigGet_same c (enqGet w.st p.g)).2.2.1
  have hn : (doGet c w.st p.g).nextId = w.st.nextId + 1 := (trigGet_same c (enqGet w.st p.g)).2.2.2.1
  have hnow : (doGet c w.st p.g).now = w.st.now := get_now c w.st p.g
  have hin : w.st.nextId ∈ getIds (doGet c w.st p.g) :=
    (Store.trigGet_getIds c (enqGet w.st p.g)).mem_iff.1 (by simp [getIds, enqGet])
  have hfresh : w.st.nextId ∉ getIds w.st := fun hm => absurd (hids.lt _ (List.mem_append_left _ hm)) (lt_irrefl _)
  have hfd : w.st.nextId ∉ w.st.delivered.map (·.1) := fun hm => hfresh (by simp only [getIds, List.mem_append]; tauto)
  have hfl : w.st.nextId ∉ w.st.lost.map (·.1) := fun hm => hfresh (by simp only [getIds, List.mem_append]; tauto)
  have hmine : mineOf (w.mine ++ [w.st.nextId]) w.st.delivered = mineOf w.mine w.st.delivered := by
    refine List.filter_congr fun q hq => ?_
    have : q.1 ≠ w.st.nextId := fun he => hfd (List.mem_map.2 ⟨q, hq, he⟩)
    simp [this]
  have hnd : ∀ x, (w.st.nextId, x) ∉ w.st.delivered := fun x hx => hfd (List.mem_map.2 ⟨_, hx, rfl⟩)
  have hcond : ∀ n, ((if (w.need && w.fired) = true then some n else none) = (none : Option Nat)) ↔ ¬ (w.need = true ∧ w.fired = true) := by
    intro n; cases w.need <;> cases w.fired <;> simp
  have hnf : w.fired = true → w.need = true := by
    intro hf
    by_contra hne
    have : w.taken = [] := by by_contra ht; exact hne (hneed.2 ht)
    rw [(h0 this).2] at hf; cases hf
  unfold Verif.Windowed.request
  exact {
    ids := (hids.enqGet p.g).trigGet
    lt := by
      intro i hi
      simp only [hb, List.map_nil, List.append_nil, List.mem_append, List.mem_singleton] at hi
      rw [hn]
      rcases hi with hi | rfl
      · exact Nat.lt_succ_of_lt (hlt i hi)
      · exact Nat.lt_succ_self _
    idle := by intro h; cases h
    curM := by intro _; simp
    older := by
      intro i hi hne
      simp only [List.mem_append, List.mem_singleton] at hi
      rw [hd]
      exact hi.elim (hold i) (fun h => absurd h hne)
    curW := by
      intro _
      refine ⟨?_, hin, ?_⟩
      · rw [hw]; simp
      · rw [hl]; exact hfl
    dead := by intro h; cases h
    gotN := by
      intro _
      show (mineOf (w.mine ++ [w.st.nextId]) (doGet c w.st p.g).delivered).map (·.2) = _
      rw [hd, hmine]; exact hgot
    gotS := by
      intro _ x hx
      have hx' : (w.st.nextId, x) ∈ (doGet c w.st p.g).delivered := hx
      rw [hd] at hx'
      exact absurd hx' (hnd x)
    condN := by intro _ _; show w.st.nextId ∉ (doGet c w.st p.g).delivered.map (·.1); rw [hd]; exact hfd
    condS := by
      intro _ hc _
      by_contra hf
      exact hc ((hcond _).2 fun h => hf h.2)
    condF := by
      intro _ hf hc
      exact (hcond _).1 hc ⟨hnf hf, hf⟩
    res := by show _ = w.back.map (·.2) ++ w.result; rw [hb]; exact hres
    need := hneed
    dl0 := fun _ => h0
    dl1 := by
      intro _ ht
      show ∃ a, _ ∧ _ ∧ (doGet c w.st p.g).now ≤ _ ∧ (_ → (doGet c w.st p.g).now = _)
      rw [hnow]; exact h1 ht
    past := by intro q hq; show _ ≤ (doGet c w.st p.g).now; rw [hnow]; exact hpast q hq
    chain := hchain
    within := hwithin
    pos := fun _ => hpos
    fin := by intro h; cases h
    unfin := fun _ => hret
    noback := fun _ => hb
    puts := by
      show mineOf (w.back.map (·.1)) _ = w.back
      rw [hb]; simp [mineOf]
    backA := by
      intro i hi
      have hi' : i ∈ w.back.map (·.1) := hi
      rw [hb] at hi'; cases hi'
    canc := by intro h; cases h }

theorem Inv.start {c : Cfg ι γ ν} {p : Par γ} {w : W ι γ ν} (h : Inv p w) (hp : w.phase = .idle) : Inv p (round c p w) := by
  obtain ⟨h1, h2, h3, h4⟩ := h.idle hp
  have hn : w.need = false := by
    rw [← Bool.not_eq_true, h.need, h2]; simp
  unfold round
  rw [hn, Bool.false_and, if_neg (by decide)]
  refine Inv.request h.ids (by rw [h1]; simp) (h.noback (.inl hp)) (by rw [h1]; simp) (h.gotN (.inr hp)) ?_ h.need (fun _ => ⟨h3, h4⟩)
    (fun ht => absurd h2 ht) h.past h.chain h.within (fun ht => absurd h2 ht) (h.unfin (by rw [hp]; decide))
  have := h.res
  rw [h.noback (.inl hp)] at this
  simpa using this

/-- The next put of the clean-up. -/
theorem Inv.giveBack {c : Cfg ι γ ν} {p : Par γ} {w : W ι γ ν} (h : Inv p { w with phase := .returning })
    (hb : ∀ i ∈ w.back.map (·.1), i ∈ w.st.accepted.map (·.1)) : Inv p (giveBack c w) := by
  unfold Verif.Windowed.giveBack
  cases hr : w.result with
  | nil =>
    exact { h with
      idle := by intro h; cases h
      res := by have := h.res; simp only [hr] at this; exact this
      curM := fun _ => h.curM (by intro h; cases h)
      curW := by intro h; cases h
      dead := fun _ => h.dead rfl
      gotN := by rintro (hx | hx); exacts [h.gotN (.inl hx), by cases hx]
      gotS := by intro h; cases h
      condN := by intro h; cases h
      condS := by intro h; cases h
      condF := by intro h; cases h
      dl0 := by intro h; cases h
      dl1 := by intro h; cases h
      pos := by intro h; cases h
      fin := by intro h; cases h
      unfin := fun _ => h.unfin (by intro h; cases h)
      noback := by rintro (h | h | h) <;> cases h
      backA := fun i hi _ => hb i hi
      canc := fun _ => rfl }
  | cons x r =>
    have hlt := h.lt
    have hf : Frame w.mine (w.back.map (·.1)) w.st (doPut c w.st x) := Frame.put x hlt
    have h' := h.frame (s' := doPut c w.st x) w.cond ((h.ids.enqPut x).trigPut) hf Iff.rfl (by show w.st.now ≤ _; rw [put_now]) (by intro hp; cases hp)
    have hpq : (doPut c w.st x).accepted ++ (doPut c w.st x).putQ = (w.st.accepted ++ w.st.putQ) ++ [(w.st.nextId, x)] := by
      rw [doPut, Store.trigPut_putIds]; simp [enqPut]
    have hnx : (doPut c w.st x).nextId = w.st.nextId + 1 := (trigPut_same c (enqPut w.st x)).2.2.2.1
    have hfresh : w.st.nextId ∉ w.back.map (·.1) := fun hm => absurd (hlt _ (List.mem_append_right _ hm)) (lt_irrefl _)
    have hputs : mineOf (w.back.map (·.1)) (w.st.accepted ++ w.st.putQ) = w.back := h.puts
    have hfp : w.st.nextId ∉ (w.st.accepted ++ w.st.putQ).map (·.1) :=
      fun hm => absurd (h.ids.lt _ (List.mem_append_right _ hm)) (lt_irrefl _)
    exact { h' with
      lt := by
        intro i hi
        show i < (doPut c w.st x).nextId
        rw [hnx]
        simp only [List.map_append, List.map_cons, List.map_nil, List.mem_append, List.mem_singleton] at hi
        rcases hi with hi | hi | rfl
        · exact Nat.lt_succ_of_lt (hlt i (List.mem_append_left _ hi))
        · exact Nat.lt_succ_of_lt (hlt i (List.mem_append_right _ hi))
        · exact Nat.lt_succ_self _
      res := by
        have := h.res
        simp only [hr] at this
        simp [this]
      fin := by intro h; cases h
      noback := by rintro (h | h | h) <;> cases h
      puts := by
        show mineOf ((w.back ++ [(w.st.nextId, x)]).map (·.1)) ((doPut c w.st x).accepted ++ (doPut c w.st x).putQ) = _
        rw [hpq, mineOf_append, mineOf_yes x (by simp)]
        have : mineOf ((w.back ++ [(w.st.nextId, x)]).map (·.1)) (w.st.accepted ++ w.st.putQ) = mineOf (w.back.map (·.1)) (w.st.accepted ++ w.st.putQ) := by
          refine List.filter_congr fun q hq => ?_
          have : q.1 ≠ w.st.nextId := fun he => hfp (List.mem_map.2 ⟨q, hq, he⟩)
          simp [this]
        rw [this, hputs]
      backA := by
        intro i hi hor
        simp only [List.map_append, List.map_cons, List.map_nil, List.mem_append, List.mem_singleton] at hi
        rcases hi with hi | rfl
        · exact hf.acc i (hb i hi)
        · rcases hor with hne | hc
          · exact absurd rfl hne
          · cases hc
      canc := by intro h; cases h }

end Verif.Windowed
