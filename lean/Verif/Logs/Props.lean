import Verif.Logs.Spec
import Verif.Units.Props
import Mathlib.Tactic.Linarith
import Mathlib.Tactic.FieldSimp
import Mathlib.Tactic.Ring
import Mathlib.Tactic.NormNum

/-! # C68: time stamps and logs -/

namespace Verif.Logs

open Spec Units

theorem milli_near (x : Rat) : |(milli x : Rat) / 1000 - x| ≤ 1 / 2000 := by
  have h1 : (((x * 1000).floor : Int) : Rat) ≤ x * 1000 := Rat.floor_le _
  have h2 : x * 1000 < ((x * 1000).floor : Int) + 1 := by exact_mod_cast Rat.lt_floor_add_one (x * 1000)
  unfold milli
  simp only
  rw [abs_le]
  split
  · constructor <;> linarith
  · split
    · push_cast; constructor <;> linarith
    · have : x * 1000 - ((x * 1000).floor : Int) = 1 / 2 := by linarith
      split
      · constructor <;> linarith
      · push_cast; constructor <;> linarith

theorem standard_iff {lower : String → String} (hl : Lower lower) (u : String) :
    ((alternates.get? (lower u)).getD u ∈ standardTimes ↔ ∃ k, seconds lower u = some k) ∧
    (∀ k, seconds lower u = some k → ∀ v, unitConvert lower v u "hr" = some (v * (k / 3600))) := by
  have hs : lower "s" = "s" := hl _ (by decide)
  have hm : lower "min" = "min" := hl _ (by decide)
  have hh : lower "hr" = "hr" := hl _ (by decide)
  have hcon : ∀ c f : _, canon lower u = c → entry table c "hr" = some f → ∀ v, unitConvert lower v u "hr" = some (v * f) := by
    intro c f h1 h2 v
    have : canon lower "hr" = "hr" := by unfold canon; rw [hh]; decide
    unfold unitConvert
    rw [h1, this, h2]; rfl
  have e1 : entry table "s" "hr" = some (1 / 3600) := by decide +kernel
  have e2 : entry table "min" "hr" = some (60 / 3600) := by decide +kernel
  have e3 : entry table "hr" "hr" = some (3600 / 3600) := by decide +kernel
  have hc : ∀ w, alternates.get? (lower u) = some w → canon lower u = w := fun w h => by unfold canon; rw [h]; rfl
  have hget : alternates.get? (lower u) =
      if lower u = "seconds" then some "s" else if lower u = "second" then some "s" else if lower u = "minute" then some "min"
      else if lower u = "minutes" then some "min" else if lower u = "hour" then some "hr" else if lower u = "hours" then some "hr"
      else if lower u = "days" then some "day" else if lower u = "weeks" then some "week" else none := by
    simp only [alternates, Dict.get?_cons, Dict.get?]
    simp only [eq_comm]
  by_cases c1 : u = "s"
  · subst c1
    have : seconds lower "s" = some 1 := by simp [seconds]
    refine ⟨⟨fun _ => ⟨_, this⟩, fun _ => ?_⟩, fun k hk => ?_⟩
    · rw [hs]; decide
    · rw [this] at hk; cases hk
      exact hcon "s" _ (by unfold canon; rw [hs]; decide) e1
  by_cases c2 : u = "min"
  · subst c2
    have : seconds lower "min" = some 60 := by simp [seconds, hm]
    refine ⟨⟨fun _ => ⟨_, this⟩, fun _ => ?_⟩, fun k hk => ?_⟩
    · rw [hm]; decide
    · rw [this] at hk; cases hk
      exact hcon "min" _ (by unfold canon; rw [hm]; decide) e2
  by_cases c3 : u = "hr"
  · subst c3
    have : seconds lower "hr" = some 3600 := by simp [seconds, hh]
    refine ⟨⟨fun _ => ⟨_, this⟩, fun _ => ?_⟩, fun k hk => ?_⟩
    · rw [hh]; decide
    · rw [this] at hk; cases hk
      exact hcon "hr" _ (by unfold canon; rw [hh]; decide) e3
  have hcase : ∀ (w : String) (k f : Rat), alternates.get? (lower u) = some w → seconds lower u = some k → w ∈ standardTimes →
      entry table w "hr" = some f → f = k / 3600 →
      ((alternates.get? (lower u)).getD u ∈ standardTimes ↔ ∃ k, seconds lower u = some k) ∧
      (∀ k, seconds lower u = some k → ∀ v, unitConvert lower v u "hr" = some (v * (k / 3600))) := by
    intro w k f h1 h2 h3 h4 h5
    refine ⟨⟨fun _ => ⟨k, h2⟩, fun _ => by rw [h1]; exact h3⟩, fun k' hk' v => ?_⟩
    rw [h2] at hk'; cases hk'
    rw [hcon w f (hc w h1) h4 v, h5]
  by_cases d1 : lower u = "seconds"
  · exact hcase "s" 1 _ (by rw [hget]; simp [d1]) (by simp [seconds, d1]) (by decide) e1 rfl
  by_cases d2 : lower u = "second"
  · exact hcase "s" 1 _ (by rw [hget]; simp [d2]) (by simp [seconds, d2]) (by decide) e1 rfl
  by_cases d3 : lower u = "minute"
  · exact hcase "min" 60 _ (by rw [hget]; simp [d3]) (by simp [seconds, d3, c1]) (by decide) e2 rfl
  by_cases d4 : lower u = "minutes"
  · exact hcase "min" 60 _ (by rw [hget]; simp [d4]) (by simp [seconds, d4, c1]) (by decide) e2 rfl
  by_cases d5 : lower u = "hour"
  · exact hcase "hr" 3600 _ (by rw [hget]; simp [d5]) (by simp [seconds, d5, c1, c2]) (by decide) e3 rfl
  by_cases d6 : lower u = "hours"
  · exact hcase "hr" 3600 _ (by rw [hget]; simp [d6]) (by simp [seconds, d6, c1, c2]) (by decide) e3 rfl
  have hn : seconds lower u = none := by simp [seconds, c1, c2, c3, d1, d2, d3, d4, d5, d6]
  refine ⟨⟨fun h => ?_, fun ⟨k, h⟩ => by rw [hn] at h; cases h⟩, fun k h => by rw [hn] at h; cases h⟩
  exfalso
  rw [hget] at h
  simp only [d1, d2, d3, d4, d5, d6, if_false] at h
  split at h
  · exact absurd h (by simp [standardTimes])
  · split at h
    · exact absurd h (by simp [standardTimes])
    · simp [standardTimes, c1, c2, c3] at h

/-- `pretty_now` fails only for units without clock and a `daily_time_count` of zero; otherwise what it shows is right: hours, minutes
and seconds of the day for units of seconds, minutes and hours, thousandths of the unit for others. -/
theorem c68_right {lower : String → String} (hl : Lower lower) (x : Rat) (unit : Option String) (daily : Option Rat) :
    match pretty lower x unit daily with
    | some ts => Right lower x unit daily ts
    | none => seconds lower (unit.getD "hr") = none ∧ daily = some 0 := by
  obtain ⟨h1, h2⟩ := standard_iff hl (unit.getD "hr")
  unfold pretty
  simp only
  by_cases hs : (alternates.get? (lower (unit.getD "hr"))).getD (unit.getD "hr") ∈ standardTimes
  · obtain ⟨k, hk⟩ := h1.1 hs
    rw [if_pos hs, h2 k hk x]
    simp only [Right]
    set d := (x * (k / 3600) / 24).floor with hd
    set n := ((x * (k / 3600) - d * 24) * 3600).floor with hn
    have a1 : (d : Rat) ≤ x * (k / 3600) / 24 := Rat.floor_le _
    have a2 : x * (k / 3600) / 24 < (d : Rat) + 1 := by exact_mod_cast Rat.lt_floor_add_one (x * (k / 3600) / 24)
    have b1 : (n : Rat) ≤ (x * (k / 3600) - d * 24) * 3600 := Rat.floor_le _
    have b2 : (x * (k / 3600) - d * 24) * 3600 < (n : Rat) + 1 := by
      have := Rat.lt_floor_add_one ((x * (k / 3600) - d * 24) * 3600)
      rw [← hn] at this
      push_cast at this
      exact this
    have e : (x * (k / 3600) - d * 24) * 3600 = x * k - d * 86400 := by ring
    rw [e] at b1 b2
    have e' : x * (k / 3600) / 24 = x * k / 86400 := by ring
    rw [e'] at a1 a2
    have n0 : 0 ≤ n := by
      have : (-1 : Rat) < n := by linarith
      have : (-1 : Int) < n := by exact_mod_cast this
      omega
    have n1 : n < 86400 := by
      have : (n : Rat) < 86400 := by linarith
      exact_mod_cast this
    refine ⟨k, hk, by omega, by omega, by omega, ?_⟩
    have hsum : d * 86400 + n % 86400 / 3600 * 3600 + n % 3600 / 60 * 60 + n % 60 = d * 86400 + n := by omega
    rw [hsum]
    push_cast
    constructor <;> linarith
  · rw [if_neg hs]
    have hn : seconds lower (unit.getD "hr") = none := by
      cases hx : seconds lower (unit.getD "hr") with
      | none => rfl
      | some k => exact absurd (h1.2 ⟨k, hx⟩) hs
    cases daily with
    | none => exact ⟨hn, rfl, rfl, milli_near x⟩
    | some c =>
      simp only
      by_cases hc : c = 0
      · rw [if_pos hc]; exact ⟨hn, by rw [hc]⟩
      · rw [if_neg hc]
        refine ⟨hn, rfl, c, rfl, ?_, fun hpos => ?_⟩
        · have := milli_near (x - (x / c).floor * c)
          rw [show ((x / c).floor : Rat) * c + (milli (x - (x / c).floor * c) : Rat) / 1000 - x =
            (milli (x - (x / c).floor * c) : Rat) / 1000 - (x - (x / c).floor * c) by ring]
          exact this
        · have a1 : ((x / c).floor : Rat) ≤ x / c := Rat.floor_le _
          have a2 : x / c < ((x / c).floor : Rat) + 1 := by exact_mod_cast Rat.lt_floor_add_one (x / c)
          rw [le_div_iff₀ hpos] at a1
          rw [div_lt_iff₀ hpos] at a2
          exact ⟨a1, a2⟩

/-- Half past one on the third day, in minutes; and 50.25 ticks of which a day has 24. -/
example : pretty (fun u => u) (2 * 1440 + 90) (some "minutes") none = some (.clock 2 1 30 0) ∧
    pretty (fun u => u) (50 + 1 / 4) (some "ticks") (some 24) = some (.daily 2 2250 "ticks") ∧ Lower (fun u => u) := by
  refine ⟨by decide +kernel, by decide +kernel, fun _ _ => rfl⟩

/-- Day, hour, minute, second, compared in this order. -/
def Spec.Before (a b : Int × Int × Int × Int) : Prop :=
  a.1 < b.1 ∨ a.1 = b.1 ∧ (a.2.1 < b.2.1 ∨ a.2.1 = b.2.1 ∧ (a.2.2.1 < b.2.2.1 ∨ a.2.2.1 = b.2.2.1 ∧ a.2.2.2 < b.2.2.2))

/-- Stamps are in the order of the times: a later one never shows less, and more if it is a second later. -/
theorem c68_order {lower : String → String} (hl : Lower lower) {x y : Rat} (hxy : x ≤ y) {unit : Option String} {daily : Option Rat}
    {d h m s d' h' m' s' : Int} (hx : pretty lower x unit daily = some (.clock d h m s)) (hy : pretty lower y unit daily = some (.clock d' h' m' s')) :
    ¬ Before (d', h', m', s') (d, h, m, s) ∧
    (∀ k, seconds lower (unit.getD "hr") = some k → x * k + 1 ≤ y * k → Before (d, h, m, s) (d', h', m', s')) := by
  have r1 := c68_right hl x unit daily
  have r2 := c68_right hl y unit daily
  rw [hx] at r1
  rw [hy] at r2
  obtain ⟨k, hk, a1, a2, a3, a4, a5⟩ := r1
  obtain ⟨k', hk', b1, b2, b3, b4, b5⟩ := r2
  rw [hk] at hk'
  cases hk'
  have kpos : 0 ≤ k := by
    unfold seconds at hk
    split at hk
    · cases hk; norm_num
    · split at hk
      · cases hk; norm_num
      · split at hk
        · cases hk; norm_num
        · cases hk
  have hle : x * k ≤ y * k := mul_le_mul_of_nonneg_right hxy kpos
  unfold Before
  constructor
  · have : ((d * 86400 + h * 3600 + m * 60 + s : Int) : Rat) < ((d' * 86400 + h' * 3600 + m' * 60 + s' : Int) : Rat) + 1 := by linarith
    have : (d * 86400 + h * 3600 + m * 60 + s : Int) < (d' * 86400 + h' * 3600 + m' * 60 + s' : Int) + 1 := by exact_mod_cast this
    simp only
    omega
  · intro k2 hk2 hsec
    rw [hk] at hk2
    cases hk2
    have : ((d * 86400 + h * 3600 + m * 60 + s : Int) : Rat) < ((d' * 86400 + h' * 3600 + m' * 60 + s' : Int) : Rat) := by linarith
    have : (d * 86400 + h * 3600 + m * 60 + s : Int) < (d' * 86400 + h' * 3600 + m' * 60 + s' : Int) := by exact_mod_cast this
    simp only
    omega

example : pretty (fun u => u) (3599 / 3600) none none = some (.clock 0 0 59 59) ∧ pretty (fun u => u) 1 none none = some (.clock 0 1 0 0) := by
  decide +kernel

/-- The rest of a day can be shown as a whole day. -/
theorem c68_full_day : pretty (fun u => u) (239996 / 10000) (some "ticks") (some 24) = some (.daily 0 24000 "ticks") := by decide +kernel

/-- The unit is not lower-cased when it is the short name: `"HR"` is taken for a unit without clock, though `unit_convert` knows it. -/
theorem c68_upper_case {lower : String → String} (hl : lower "HR" = "hr") (hh : lower "hr" = "hr") (x : Rat) :
    pretty lower x (some "HR") none = some (.plain (milli x) "HR") ∧ unitConvert lower x "HR" "hr" = some x := by
  constructor
  · unfold pretty
    simp only [Option.getD_some, hl]
    rw [if_neg (by decide)]
  · unfold unitConvert canon
    rw [hl, hh]
    have : entry table ((alternates.get? "hr").getD "hr") ((alternates.get? "hr").getD "hr") = some 1 := by decide +kernel
    rw [this]
    simp

/-- Days are not shown as days. -/
theorem c68_days : pretty (fun u => u) (3 / 2) (some "days") none = some (.plain 1500 "days") := by decide +kernel

/-! ## Logs -/

/-- The relation of the state to the trace. -/
structure Inv (lower : String → String) (t0 : Rat) (s : St) (tr : Trace) : Prop where
  stage : s.stage = Spec.stage tr
  nEnv : s.nEnv = envs tr
  pos : 0 < s.nEnv
  info : ∀ a, Spec.info tr a = if a < s.nAct then some ((s.act a).on, (s.act a).time, (s.act a).env) else none
  env : ∀ a, a < s.nAct → (s.act a).env < s.nEnv
  clock : ∀ e, e < s.nEnv → s.clock e = Spec.clock t0 tr e
  fresh : ∀ a, s.nAct ≤ a → (s.act a).log = []
  log : ∀ a, List.Forall₂ (Ok lower) (s.act a).log (wanted t0 tr a)

theorem upd_same {α : Type} (f : Nat → α) (i : Nat) (x : α) : upd f i x i = x := by simp [upd]
theorem upd_ne {α : Type} (f : Nat → α) {i j : Nat} (x : α) (h : j ≠ i) : upd f i x j = f j := by simp [upd, h]

theorem Inv.none {lower : String → String} {t0 : Rat} {s : St} {tr : Trace} (h : Inv lower t0 s tr) {a : Nat} (ha : s.nAct ≤ a) :
    wanted t0 tr a = [] := by
  have := h.log a
  rw [h.fresh a ha] at this
  exact List.forall₂_nil_left_iff.1 this

/-- An entry about which the specification says nothing. -/
theorem Inv.dull {lower : String → String} {t0 : Rat} {s : St} {tr : Trace} (h : Inv lower t0 s tr) {e : Op × Out}
    (h1 : Spec.stage (e :: tr) = Spec.stage tr) (h2 : envs (e :: tr) = envs tr) (h3 : ∀ a, Spec.info (e :: tr) a = Spec.info tr a)
    (h4 : ∀ i, Spec.clock t0 (e :: tr) i = Spec.clock t0 tr i) (h5 : ∀ a, wanted t0 (e :: tr) a = wanted t0 tr a) :
    Inv lower t0 s (e :: tr) :=
  ⟨h.stage.trans h1.symm, h.nEnv.trans h2.symm, h.pos, fun a => (h3 a).trans (h.info a), h.env,
    fun e he => (h.clock e he).trans (h4 e).symm, h.fresh, fun a => by rw [h5]; exact h.log a⟩

/-- The log of one actor changes. -/
theorem Inv.relog {lower : String → String} {t0 : Rat} {s : St} {tr : Trace} (h : Inv lower t0 s tr) {e : Op × Out} {a : Nat} (ha : a < s.nAct)
    (x : Actor) (x1 : x.on = (s.act a).on) (x2 : x.time = (s.act a).time) (x3 : x.env = (s.act a).env) (h1 : Spec.stage (e :: tr) = Spec.stage tr) (h2 : envs (e :: tr) = envs tr)
    (h3 : ∀ a, Spec.info (e :: tr) a = Spec.info tr a) (h4 : ∀ i, Spec.clock t0 (e :: tr) i = Spec.clock t0 tr i)
    (h5 : ∀ b, b ≠ a → wanted t0 (e :: tr) b = wanted t0 tr b) (h6 : List.Forall₂ (Ok lower) x.log (wanted t0 (e :: tr) a)) :
    Inv lower t0 { s with act := upd s.act a x } (e :: tr) := by
  refine ⟨h.stage.trans h1.symm, h.nEnv.trans h2.symm, h.pos, fun b => ?_, fun b hb => ?_,
    fun e he => (h.clock e he).trans (h4 e).symm, fun b hb => ?_, fun b => ?_⟩
  · rw [h3, h.info b]
    by_cases e : b = a
    · subst e; simp only [upd_same, x1, x2, x3]
    · simp only [upd_ne _ _ e]
  · by_cases e : b = a
    · subst e; simp only [upd_same, x3]; exact h.env b hb
    · simp only [upd_ne _ _ e]; exact h.env b hb
  · have e : b ≠ a := by simp only at hb; omega
    simp only [upd_ne _ _ e]; exact h.fresh b hb
  · by_cases e : b = a
    · subst e; simp only [upd_same]; exact h6
    · simp only [upd_ne _ _ e]; rw [h5 b e]; exact h.log b

theorem inv_make {lower : String → String} {t0 : Rat} {s : St} {tr : Trace} (h : Inv lower t0 s tr) (on : Bool) (time : Option Bool) :
    Inv lower t0 (step lower s (.make on time)).1 ((.make on time, (step lower s (.make on time)).2) :: tr) := by
  simp only [step]
  refine ⟨h.stage, h.nEnv, h.pos, fun a => ?_, fun a ha => ?_, h.clock, fun a ha => ?_, fun a => ?_⟩
  · simp only [Spec.info]
    by_cases e : s.nAct = a
    · subst e; simp [upd]
    · rw [if_neg e, h.info a]
      simp only [upd_ne _ _ (fun x => e x.symm)]
      by_cases h1 : a < s.nAct
      · rw [if_pos h1, if_pos (by omega)]
      · rw [if_neg h1, if_neg (by omega)]
  · by_cases e : a = s.nAct
    · subst e; simp only [upd_same]; exact h.pos
    · simp only [upd_ne _ _ e]; exact h.env a (by simp only at ha; omega)
  · have e : a ≠ s.nAct := by simp only at ha; omega
    simp only [upd_ne _ _ e]; exact h.fresh a (by simp only at ha; omega)
  · simp only [wanted]
    by_cases e : a = s.nAct
    · subst e; simp only [upd_same]; rw [h.none (Nat.le_refl _)]; exact .nil
    · simp only [upd_ne _ _ e]; exact h.log a

theorem inv_clone {lower : String → String} {t0 : Rat} {s : St} {tr : Trace} (h : Inv lower t0 s tr) {b : Nat} (hb : b < s.nAct) :
    Inv lower t0 (clone s b).1 ((.clone b, (clone s b).2) :: tr) := by
  have hib := h.info b
  rw [if_pos hb] at hib
  simp only [clone]
  refine ⟨h.stage, by simp only [envs]; rw [h.nEnv], Nat.succ_pos _, fun a => ?_, fun a ha => ?_, fun e he => ?_, fun a ha => ?_, fun a => ?_⟩
  · simp only [Spec.info]
    by_cases e : s.nAct = a
    · subst e
      rw [if_pos rfl, hib, if_pos (Nat.lt_succ_self _)]
      simp [upd, h.nEnv]
    · rw [if_neg e, h.info a]
      simp only [upd_ne _ _ (fun x => e x.symm)]
      by_cases h1 : a < s.nAct
      · rw [if_pos h1, if_pos (by omega)]
      · rw [if_neg h1, if_neg (by omega)]
  · by_cases e : a = s.nAct
    · subst e; simp only [upd_same]; exact Nat.lt_succ_self _
    · simp only [upd_ne _ _ e]; exact Nat.lt_succ_of_lt (h.env a (by simp only at ha; omega))
  · simp only [Spec.clock, ← h.nEnv, hib]
    by_cases e' : e = s.nEnv
    · subst e'; rw [if_pos rfl, upd_same]; exact h.clock _ (h.env b hb)
    · rw [if_neg e', upd_ne _ _ e']; exact h.clock e (by simp only at he; omega)
  · have e : a ≠ s.nAct := by simp only at ha; omega
    simp only [upd_ne _ _ e]; exact h.fresh a (by simp only at ha; omega)
  · simp only [wanted]
    by_cases e : s.nAct = a
    · subst e
      rw [if_pos rfl, hib]
      simp only [upd_same]
      cases hon : (s.act b).on with
      | true => exact h.log b
      | false => exact .nil
    · rw [if_neg e]; simp only [upd_ne _ _ (fun x => e x.symm)]; exact h.log a

theorem inv_cloneIn {lower : String → String} {t0 : Rat} {s : St} {tr : Trace} (h : Inv lower t0 s tr) {b i : Nat} (hb : b < s.nAct) (hi : i < s.nEnv) :
    Inv lower t0 (cloneIn s b i).1 ((.cloneIn b i, (cloneIn s b i).2) :: tr) := by
  have hib := h.info b
  rw [if_pos hb] at hib
  simp only [cloneIn]
  refine ⟨h.stage, h.nEnv, h.pos, fun a => ?_, fun a ha => ?_, h.clock, fun a ha => ?_, fun a => ?_⟩
  · simp only [Spec.info]
    by_cases e : s.nAct = a
    · subst e
      rw [if_pos rfl, hib, if_pos (Nat.lt_succ_self _)]
      simp [upd]
    · rw [if_neg e, h.info a]
      simp only [upd_ne _ _ (fun x => e x.symm)]
      by_cases h1 : a < s.nAct
      · rw [if_pos h1, if_pos (by omega)]
      · rw [if_neg h1, if_neg (by omega)]
  · by_cases e : a = s.nAct
    · subst e; simp only [upd_same]; exact hi
    · simp only [upd_ne _ _ e]; exact h.env a (by simp only at ha; omega)
  · have e : a ≠ s.nAct := by simp only at ha; omega
    simp only [upd_ne _ _ e]; exact h.fresh a (by simp only at ha; omega)
  · simp only [wanted]
    by_cases e : s.nAct = a
    · subst e
      rw [if_pos rfl, hib]
      simp only [upd_same]
      cases hon : (s.act b).on with
      | true => exact h.log b
      | false => exact .nil
    · rw [if_neg e]; simp only [upd_ne _ _ (fun x => e x.symm)]; exact h.log a

theorem inv_log {lower : String → String} (hl : Lower lower) {t0 : Rat} {s : St} {tr : Trace} (h : Inv lower t0 s tr) {a : Nat} (ha : a < s.nAct)
    (m : Option String) : Inv lower t0 (log lower s a m).1 ((.log a m, (log lower s a m).2) :: tr) := by
  have hia := h.info a
  rw [if_pos ha] at hia
  cases m with
  | none => exact h.dull rfl rfl (fun _ => rfl) (fun _ => rfl) (fun _ => rfl)
  | some m =>
    simp only [log]
    cases hon : (s.act a).on with
    | false =>
      rw [hon] at hia
      simp only [Bool.not_false, if_true]
      refine h.dull rfl rfl (fun _ => rfl) (fun _ => rfl) (fun b => ?_)
      simp only [wanted]
      split
      · rename_i e; subst e; rw [hia]
      · rfl
    | true =>
      rw [hon] at hia
      have hc := h.clock _ (h.env a ha)
      simp only [Bool.not_true, Bool.false_eq_true, if_false]
      have hw : ∀ l, wanted t0 ((.log a (some m), .nothing) :: tr) a = l ↔ wanted t0 tr a ++ [.logged (s.clock (s.act a).env)
          (if (s.act a).time.getD (s.stage.logTime.getD true) then some s.stage else none) m] = l := by
        intro l
        simp only [wanted, if_true, hia, hc, h.stage]
      cases ht : (s.act a).time.getD (s.stage.logTime.getD true) with
      | false =>
        simp only [Bool.false_eq_true, if_false]
        refine h.relog (e := (.log a (some m), .nothing)) ha _ hon.symm rfl rfl rfl rfl (fun _ => rfl) (fun _ => rfl) (fun b hb => ?_) ?_
        · simp only [wanted]; rw [if_neg (fun e => hb e.symm)]
        · rw [(hw _).2 rfl, ht]
          exact List.rel_append (h.log a) (.cons ⟨rfl, rfl, rfl⟩ .nil)
      | true =>
        have hr := c68_right hl (s.clock (s.act a).env) s.stage.unit s.stage.daily
        simp only [if_true]
        cases hp : pretty lower (s.clock (s.act a).env) s.stage.unit s.stage.daily with
        | none => exact h.dull rfl rfl (fun _ => rfl) (fun _ => rfl) (fun _ => rfl)
        | some ts =>
          rw [hp] at hr
          refine h.relog (e := (.log a (some m), .nothing)) ha _ hon.symm rfl rfl rfl rfl (fun _ => rfl) (fun _ => rfl) (fun b hb => ?_) ?_
          · simp only [wanted]; rw [if_neg (fun e => hb e.symm)]
          · rw [(hw _).2 rfl, ht]
            exact List.rel_append (h.log a) (.cons ⟨rfl, rfl, ts, rfl, hr⟩ .nil)

theorem inv_step {lower : String → String} (hl : Lower lower) {t0 : Rat} {s : St} {tr : Trace} (h : Inv lower t0 s tr) (op : Op) :
    Inv lower t0 (step lower s op).1 ((op, (step lower s op).2) :: tr) := by
  cases op with
  | make on time => exact inv_make h on time
  | clone a =>
    simp only [step]
    split
    · rename_i ha; exact inv_clone h ha
    · exact h.dull rfl rfl (fun _ => rfl) (fun _ => rfl) (fun _ => rfl)
  | mock t =>
    simp only [step]
    refine ⟨h.stage, by simp only [envs]; rw [h.nEnv], Nat.succ_pos _, h.info, fun a ha => Nat.lt_succ_of_lt (h.env a ha), fun e he => ?_, h.fresh, h.log⟩
    simp only [Spec.clock, ← h.nEnv]
    by_cases e' : e = s.nEnv
    · subst e'; rw [if_pos rfl, upd_same]
    · rw [if_neg e', upd_ne _ _ e']; exact h.clock e (by simp only at he; omega)
  | cloneIn a e =>
    simp only [step]
    split
    · rename_i ha; exact inv_cloneIn h ha.1 ha.2
    · exact h.dull rfl rfl (fun _ => rfl) (fun _ => rfl) (fun _ => rfl)
  | log a m =>
    simp only [step]
    split
    · rename_i ha; exact inv_log hl h ha m
    · refine h.dull rfl rfl (fun _ => rfl) (fun _ => rfl) (fun _ => ?_)
      cases m <;> rfl
  | getLog a =>
    simp only [step]
    split <;> exact h.dull rfl rfl (fun _ => rfl) (fun _ => rfl) (fun _ => rfl)
  | edit a l =>
    simp only [step]
    split
    · rename_i ha
      refine h.relog ha _ rfl rfl rfl rfl rfl (fun _ => rfl) (fun _ => rfl) (fun b hb => ?_) ?_
      · simp only [wanted]; rw [if_neg (fun e => hb e.symm)]
      · simp only [wanted, if_true]
        clear ha
        induction l with
        | nil => exact .nil
        | cons x l ih => exact .cons rfl ih
    · exact h.dull rfl rfl (fun _ => rfl) (fun _ => rfl) (fun _ => rfl)
  | advance e dt =>
    simp only [step]
    split
    · rename_i hh
      refine ⟨h.stage, h.nEnv, h.pos, h.info, h.env, fun i hi => ?_, h.fresh, h.log⟩
      simp only [Spec.clock]
      by_cases e' : e = i
      · subst e'; rw [if_pos rfl, upd_same, h.clock e hi]
      · rw [if_neg e', upd_ne _ _ (fun x => e' x.symm)]; exact h.clock i hi
    · exact h.dull rfl rfl (fun _ => rfl) (fun _ => rfl) (fun _ => rfl)
  | setStage x => exact ⟨rfl, h.nEnv, h.pos, h.info, h.env, h.clock, h.fresh, h.log⟩

theorem inv_run {lower : String → String} (hl : Lower lower) {t0 : Rat} {s : St} {tr : Trace} (h : Inv lower t0 s tr) (ops : List Op) :
    Inv lower t0 (run lower s tr ops).1 (run lower s tr ops).2 := by
  induction ops generalizing s tr with
  | nil => exact h
  | cons op ops ih => exact ih (inv_step hl h op)

theorem inv_init (lower : String → String) (t0 : Rat) : Inv lower t0 (init t0) [] :=
  ⟨rfl, rfl, Nat.one_pos, fun a => by simp [Spec.info, init], fun a ha => by simp [init] at ha, fun _ _ => rfl, fun _ _ => rfl, fun _ => .nil⟩

/-- State and trace after some operations. -/
def Reached (lower : String → String) (t0 : Rat) (s : St) (tr : Trace) : Prop := ∃ ops, run lower (init t0) [] ops = (s, tr)

theorem Reached.inv {lower : String → String} (hl : Lower lower) {t0 : Rat} {s : St} {tr : Trace} (h : Reached lower t0 s tr) :
    Inv lower t0 s tr := by
  obtain ⟨ops, e⟩ := h
  have := inv_run hl (inv_init lower t0) ops
  rwa [e] at this

/-- `get_log` and `log()` return exactly the messages logged while logging was on, each with its time, in order, with a stamp that is
right exactly if wanted; a clone starts with the log of the original; and what somebody did to a list that was returned before. -/
theorem c68_log {lower : String → String} (hl : Lower lower) {t0 : Rat} {s : St} {tr : Trace} (h : Reached lower t0 s tr) {a : Nat}
    (ha : Spec.info tr a ≠ none) :
    ∃ l, (step lower s (.getLog a)).2 = .list a l ∧ (step lower s (.log a none)).2 = .list a l ∧ List.Forall₂ (Ok lower) l (wanted t0 tr a) := by
  have hi := h.inv hl
  have hlt : a < s.nAct := by
    rw [hi.info a] at ha
    by_contra hn
    rw [if_neg hn] at ha
    exact ha rfl
  exact ⟨(s.act a).log, by simp [step, hlt], by simp [step, hlt, log], hi.log a⟩

/-- Two messages, the second ten minutes later; without and with stamp. -/
example : (step (fun u => u) (run (fun u => u) (init 0) [] [.make true none, .log 0 (some "a"), .advance 0 (1 / 6), .log 0 (some "b")]).1 (.getLog 0)).2 =
      .list 0 [⟨0, some (.clock 0 0 0 0), "a"⟩, ⟨1 / 6, some (.clock 0 0 10 0), "b"⟩] ∧
    (step (fun u => u) (run (fun u => u) (init 0) [] [.make true (some false), .make false none, .log 0 (some "a"), .log 1 (some "b")]).1 (.getLog 0)).2 =
      .list 0 [⟨0, none, "a"⟩] := by decide +kernel

/-- A message is refused only where `pretty_now` fails, and then nothing is logged. -/
theorem c68_refused {lower : String → String} (hl : Lower lower) {t0 : Rat} {s : St} {tr : Trace} (h : Reached lower t0 s tr) (a : Nat) (m : String)
    (hr : (step lower s (.log a (some m))).2 = .raised) :
    (step lower s (.log a (some m))).1 = s ∧ seconds lower ((Spec.stage tr).unit.getD "hr") = none ∧ (Spec.stage tr).daily = some 0 := by
  have hi := h.inv hl
  have hp := c68_right hl (s.clock (s.act a).env) s.stage.unit s.stage.daily
  simp only [step] at hr ⊢
  split at hr
  · rename_i ha
    rw [if_pos ha]
    simp only [log] at hr ⊢
    split at hr
    · cases hr
    · rename_i hon
      rw [if_neg hon]
      split at hr
      · rename_i ht
        rw [if_pos ht]
        cases hx : pretty lower (s.clock (s.act a).env) s.stage.unit s.stage.daily with
        | none =>
          rw [hx] at hp
          rw [← hi.stage]
          exact ⟨rfl, hp⟩
        | some ts => rw [hx] at hr; cases hr
      · cases hr
  · cases hr

example : (step (fun u => u) (run (fun u => u) (init 0) [] [.make true none, .setStage ⟨some "ticks", some 0, none⟩]).1 (.log 0 (some "a"))).2 = .raised := by
  decide +kernel

theorem advance_nonneg {lower : String → String} {t0 : Rat} {s : St} {tr : Trace} (h : Reached lower t0 s tr) :
    ∀ e dt, (Op.advance e dt, Out.nothing) ∈ tr → 0 ≤ dt := by
  obtain ⟨ops, e⟩ := h
  have H : ∀ (ops : List Op) (s : St) (tr : Trace), (∀ e dt, (Op.advance e dt, Out.nothing) ∈ tr → 0 ≤ dt) →
      ∀ e dt, (Op.advance e dt, Out.nothing) ∈ (run lower s tr ops).2 → 0 ≤ dt := by
    intro ops
    induction ops with
    | nil => intro s tr h; exact h
    | cons op ops ih =>
      intro s tr h
      refine ih _ _ fun e dt hm => ?_
      rcases List.mem_cons.1 hm with hx | hx
      · simp only [Prod.mk.injEq] at hx
        obtain ⟨h1, h2⟩ := hx
        subst h1
        simp only [step] at h2
        split at h2
        · rename_i hh; exact hh.1
        · cases h2
      · exact h e dt hx
  have := H ops (init t0) [] (by simp)
  rw [e] at this
  exact this

/-- What a state has to satisfy for the logs to be sorted. -/
structure Sorted (s : St) : Prop where
  pos : 0 < s.nEnv
  env : ∀ a, a < s.nAct → (s.act a).env < s.nEnv
  pair : ∀ a, a < s.nAct → (s.act a).log.Pairwise (fun x y => x.time ≤ y.time)
  past : ∀ a, a < s.nAct → ∀ x ∈ (s.act a).log, x.time ≤ s.clock (s.act a).env

theorem Sorted.append {s : St} (h : Sorted s) {a : Nat} (ha : a < s.nAct) (st : Option Stamp) (m : String) :
    Sorted { s with act := upd s.act a { s.act a with log := (s.act a).log ++ [⟨s.clock (s.act a).env, st, m⟩] } } := by
  refine ⟨h.pos, fun b hb => ?_, fun b hb => ?_, fun b hb => ?_⟩
  all_goals by_cases e : b = a
  · subst e; simp only [upd_same]; exact h.env b hb
  · simp only [upd_ne _ _ e]; exact h.env b hb
  · subst e
    simp only [upd_same]
    refine List.pairwise_append.2 ⟨h.pair b hb, List.pairwise_singleton _ _, fun x hx y hy => ?_⟩
    rw [List.mem_singleton.1 hy]
    exact h.past b hb x hx
  · simp only [upd_ne _ _ e]; exact h.pair b hb
  · subst e
    simp only [upd_same]
    intro x hx
    rcases List.mem_append.1 hx with hx | hx
    · exact h.past b hb x hx
    · rw [List.mem_singleton.1 hx]
  · simp only [upd_ne _ _ e]; exact h.past b hb

theorem sorted_step {lower : String → String} {s : St} (h : Sorted s) (op : Op) (hop : ∀ a l, op = .edit a l → (step lower s op).2 ≠ .nothing)
    (hin : ∀ a e, op = .cloneIn a e → a < s.nAct → e < s.nEnv → (s.act a).on = true → s.clock (s.act a).env ≤ s.clock e) :
    Sorted (step lower s op).1 := by
  cases op with
  | make on time =>
    simp only [step]
    refine ⟨h.pos, fun b hb => ?_, fun b hb => ?_, fun b hb => ?_⟩
    all_goals by_cases e : b = s.nAct
    · subst e; simp only [upd_same]; exact h.pos
    · simp only [upd_ne _ _ e]; exact h.env b (by simp only at hb; omega)
    · subst e; simp only [upd_same]; exact .nil
    · simp only [upd_ne _ _ e]; exact h.pair b (by simp only at hb; omega)
    · subst e; simp only [upd_same]; intro x hx; cases hx
    · simp only [upd_ne _ _ e]; exact h.past b (by simp only at hb; omega)
  | clone a =>
    simp only [step]
    split
    · rename_i ha
      simp only [clone]
      refine ⟨Nat.succ_pos _, fun b hb => ?_, fun b hb => ?_, fun b hb => ?_⟩
      all_goals by_cases e : b = s.nAct
      · subst e; simp only [upd_same]; exact Nat.lt_succ_self _
      · simp only [upd_ne _ _ e]; exact Nat.lt_succ_of_lt (h.env b (by simp only at hb; omega))
      · subst e
        simp only [upd_same]
        split
        · exact h.pair a ha
        · exact .nil
      · simp only [upd_ne _ _ e]; exact h.pair b (by simp only at hb; omega)
      · subst e
        simp only [upd_same]
        split
        · exact h.past a ha
        · intro x hx; cases hx
      · have hb' : b < s.nAct := by simp only at hb; omega
        simp only [upd_ne _ _ e]
        rw [upd_ne _ _ (Nat.ne_of_lt (h.env b hb'))]
        exact h.past b hb'
    · exact h
  | mock t =>
    simp only [step]
    refine ⟨Nat.succ_pos _, fun a ha => Nat.lt_succ_of_lt (h.env a ha), h.pair, fun a ha => ?_⟩
    simp only
    rw [upd_ne _ _ (Nat.ne_of_lt (h.env a ha))]
    exact h.past a ha
  | cloneIn a i =>
    simp only [step]
    split
    · rename_i ha
      have hon := hin a i rfl ha.1 ha.2
      simp only [cloneIn]
      refine ⟨h.pos, fun b hb => ?_, fun b hb => ?_, fun b hb => ?_⟩
      all_goals by_cases e : b = s.nAct
      · subst e; simp only [upd_same]; exact ha.2
      · simp only [upd_ne _ _ e]; exact h.env b (by simp only at hb; omega)
      · subst e
        simp only [upd_same]
        split
        · exact h.pair a ha.1
        · exact .nil
      · simp only [upd_ne _ _ e]; exact h.pair b (by simp only at hb; omega)
      · subst e
        simp only [upd_same]
        split
        · rename_i ho; exact fun x hx => (h.past a ha.1 x hx).trans (hon ho)
        · intro x hx; cases hx
      · simp only [upd_ne _ _ e]; exact h.past b (by simp only at hb; omega)
    · exact h
  | log a m =>
    simp only [step]
    split
    · rename_i ha
      cases m with
      | none => exact h
      | some m =>
        simp only [log]
        split
        · exact h
        · split
          · split
            · exact h
            · exact h.append ha _ _
          · exact h.append ha _ _
    · exact h
  | getLog a => simp only [step]; split <;> exact h
  | edit a l =>
    simp only [step]
    split
    · rename_i ha; exact absurd (by simp [step, ha]) (hop a l rfl)
    · exact h
  | advance e dt =>
    simp only [step]
    split
    · rename_i hh
      refine ⟨h.pos, h.env, h.pair, fun b hb x hx => (h.past b hb x hx).trans ?_⟩
      by_cases e' : (s.act b).env = e
      · simp only [e', upd_same]; linarith [hh.1]
      · simp only [upd_ne _ _ e']; exact le_refl _
    · exact h
  | setStage x => exact ⟨h.pos, h.env, h.pair, h.past⟩

theorem mem_run {lower : String → String} {e : Op × Out} (ops : List Op) {s : St} {tr : Trace} (h : e ∈ tr) : e ∈ (run lower s tr ops).2 := by
  induction ops generalizing s tr with
  | nil => exact h
  | cons op ops ih => exact ih (List.mem_cons_of_mem _ h)

theorem onward_tail {t0 : Rat} {e : Op × Out} {tr : Trace} (h : Onward t0 (e :: tr)) : Onward t0 tr := by
  unfold Onward at h
  split at h
  · simp_all
  · rename_i he; cases he; exact h.2
  · rename_i he; cases he; exact h

theorem onward_run {lower : String → String} {t0 : Rat} (ops : List Op) {s : St} {tr : Trace} (h : Onward t0 (run lower s tr ops).2) : Onward t0 tr := by
  induction ops generalizing s tr with
  | nil => exact h
  | cons op ops ih => exact onward_tail (ih h)

theorem sorted_run {lower : String → String} (hl : Lower lower) {t0 : Rat} (ops : List Op) {s : St} {tr : Trace} (hi : Inv lower t0 s tr) (h : Sorted s)
    (hu : Unedited (run lower s tr ops).2) (ho : Onward t0 (run lower s tr ops).2) : Sorted (run lower s tr ops).1 := by
  induction ops generalizing s tr with
  | nil => exact h
  | cons op ops ih =>
    refine ih (inv_step hl hi op) (sorted_step h op (fun a l e hn => ?_) fun a e he ha hb hon => ?_) hu ho
    · refine hu a l (mem_run ops (List.mem_cons.2 (.inl ?_)))
      rw [hn, e]
    · have := onward_run ops ho
      subst he
      simp only [step, if_pos (And.intro ha hb), cloneIn, Onward] at this
      have h1 := this.1 ((s.act a).on, (s.act a).time, (s.act a).env) (by rw [hi.info a, if_pos ha]) hon
      simp only at h1
      rwa [← hi.clock _ (hi.env a ha), ← hi.clock e hb] at h1

/-- Times in the log never decrease, and are not in the future, if nobody changes the lists and no clone is put into an environment where it
is earlier: in every log, so in those of clones too. -/
theorem c68_sorted_partial {lower : String → String} (hl : Lower lower) {t0 : Rat} {s : St} {tr : Trace} (h : Reached lower t0 s tr) (hu : Unedited tr)
    (ho : Onward t0 tr) {a : Nat} {l : List Entry} (hg : (step lower s (.getLog a)).2 = .list a l) :
    l.Pairwise (fun x y => x.time ≤ y.time) ∧ ∀ x ∈ l, ∀ i, Spec.info tr a = some i → x.time ≤ clock t0 tr i.2.2 := by
  have hi := h.inv hl
  have hs : Sorted s := by
    obtain ⟨ops, e⟩ := h
    have := sorted_run (lower := lower) hl (s := init t0) (tr := []) ops (inv_init lower t0)
      ⟨Nat.one_pos, fun a ha => by simp [init] at ha, fun a ha => by simp [init] at ha, fun a ha => by simp [init] at ha⟩
    rw [e] at this
    exact this hu ho
  simp only [step] at hg
  split at hg
  · rename_i ha
    cases hg
    refine ⟨hs.pair a ha, fun x hx i hia => ?_⟩
    rw [hi.info a, if_pos ha] at hia
    cases hia
    rw [← hi.clock _ (hs.env a ha)]
    exact hs.past a ha x hx
  · cases hg

/-- A clone in an environment that is earlier has entries of the future in its log, and times that decrease. -/
theorem c68_backwards (lower : String → String) (d : Rat) (hd : 0 < d) :
    ∃ s tr, Reached lower 0 s tr ∧ Unedited tr ∧ (step lower s (.getLog 1)).2 = .list 1 [⟨d, none, "a"⟩, ⟨0, none, "b"⟩] := by
  refine ⟨_, _, ⟨[.make true (some false), .advance 0 d, .log 0 (some "a"), .mock 0, .cloneIn 0 1, .log 1 (some "b")], rfl⟩, ?_, ?_⟩
  · intro a l hm
    simp [run] at hm
  · simp [run, step, init, upd, log, cloneIn, hd.le]

/-- A mock environment that is ahead, the clone put there, and a message of each. -/
example : let tr := (run (fun u => u) (init 0) [] [.make true (some false), .log 0 (some "a"), .mock 2, .cloneIn 0 1, .log 1 (some "b"), .log 0 (some "c")])
    Unedited tr.2 ∧ Onward 0 tr.2 ∧
    (step (fun u => u) tr.1 (.getLog 1)).2 = .list 1 [⟨0, none, "a"⟩, ⟨2, none, "b"⟩] := by
  refine ⟨?_, ?_, ?_⟩
  · intro a l hm
    simp [run] at hm
  · simp [run, step, init, upd, log, cloneIn, pretty, Onward, info, clock, envs]
  · decide +kernel

/-- Two actors, a clone that runs ahead, and a message of each. -/
example : Unedited (run (fun u => u) (init 0) [] [.make true none, .log 0 (some "a"), .clone 0, .advance 1 2, .log 1 (some "b"), .advance 0 1, .log 0 (some "c")]).2 ∧
    (step (fun u => u) (run (fun u => u) (init 0) [] [.make true none, .log 0 (some "a"), .clone 0, .advance 1 2, .log 1 (some "b"), .advance 0 1,
      .log 0 (some "c")]).1 (.getLog 1)).2 = .list 1 [⟨0, some (.clock 0 0 0 0), "a"⟩, ⟨2, some (.clock 0 2 0 0), "b"⟩] := by
  constructor
  · intro a l hm
    simp [run] at hm
  · decide +kernel

/-- Logging with one actor changes no other log. -/
theorem c68_isolated {lower : String → String} (s : St) {a b : Nat} (hab : b ≠ a) (m : Option String) :
    (step lower (step lower s (.log a m)).1 (.getLog b)).2 = (step lower s (.getLog b)).2 := by
  cases m with
  | none => simp only [step]; split <;> rfl
  | some m =>
    by_cases ha : a < s.nAct
    · rw [show step lower s (.log a (some m)) = log lower s a (some m) by simp [step, ha]]
      simp only [log]
      split
      · rfl
      · split
        · split
          · rfl
          · simp only [step, upd_ne _ _ hab]; split <;> rfl
        · simp only [step, upd_ne _ _ hab]; split <;> rfl
    · rw [show step lower s (.log a (some m)) = (s, .impossible) by simp [step, ha]]

/-- The log of the other actor stays as it was, with its entry. -/
example : (step (fun u => u) (run (fun u => u) (init 0) [] [.make true none, .log 0 (some "a"), .clone 0, .log 0 (some "b")]).1 (.getLog 1)).2 =
    .list 1 [⟨0, some (.clock 0 0 0 0), "a"⟩] := by decide +kernel

/-- The list returned is the log itself: who changes it changes the log. -/
theorem c68_live {lower : String → String} (hl : Lower lower) {t0 : Rat} {s : St} {tr : Trace} (h : Reached lower t0 s tr) {a : Nat}
    (ha : Spec.info tr a ≠ none) (l : List Entry) :
    (step lower (step lower s (.edit a l)).1 (.getLog a)).2 = .list a l := by
  have hi := h.inv hl
  have hlt : a < s.nAct := by
    rw [hi.info a] at ha
    by_contra hn
    rw [if_neg hn] at ha
    exact ha rfl
  simp [step, hlt, upd]

/-- Emptying the list that `log()` returned loses the message. -/
example : (step (fun u => u) (run (fun u => u) (init 0) [] [.make true none, .log 0 (some "a"), .edit 0 []]).1 (.getLog 0)).2 = .list 0 [] := by
  decide +kernel

end Verif.Logs
