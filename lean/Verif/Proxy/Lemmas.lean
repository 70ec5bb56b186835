import Verif.Proxy.Spec
import Mathlib.Data.List.Perm.Subperm

/-!
# Dictionaries and records
-/

namespace Verif.Proxy

open Spec (Declared put putObj same sameObj note suits)

variable {V : Type} [DecidableEq V]

theorem set_put {d : Dict String V} (wf : d.keys.Nodup) (k : String) (v : V) : d.set k v = put d k v := by
  induction d with
  | nil => rfl
  | cons p d ih =>
    obtain ⟨j, w⟩ := p
    simp only [Dict.keys, List.map_cons, List.nodup_cons] at wf
    have ih := ih wf.2
    unfold put at ih ⊢
    by_cases hj : j = k
    · subst hj
      simp only [Dict.set, List.map_cons, List.mem_cons, true_or, if_true]
      have : (d.map fun p => if p.1 = j then (j, v) else p) = d := by
        conv_rhs => rw [← List.map_id d]
        apply List.map_congr_left
        intro q hq
        rw [if_neg]
        · rfl
        · rintro rfl; exact wf.1 (List.mem_map_of_mem hq)
      rw [this]
    · simp only [Dict.set, List.map_cons, List.mem_cons, if_neg hj, ih]
      by_cases hk : k ∈ d.map (·.1)
      · rw [if_pos hk, if_pos (Or.inr hk)]
      · rw [if_neg hk, if_neg (by rintro (h | h); exacts [hj h.symm, hk h])]; rfl

theorem has_mem (d : Dict String V) (k : String) : d.has k = decide (k ∈ d.map (·.1)) := by
  by_cases h : k ∈ d.map (·.1)
  · rw [decide_eq_true h]; exact Dict.has_iff.mpr h
  · rw [decide_eq_false h]
    cases hh : d.has k with
    | false => rfl
    | true => exact absurd (Dict.has_iff.mp hh) h

/-- Python's comparison of dictionaries says the same of every key. -/
theorem dictEq_same {d e : Dict String V} (hd : d.keys.Nodup) (he : e.keys.Nodup) : dictEq d e = same e d := by
  unfold dictEq same
  rw [Bool.eq_iff_iff]
  simp only [Bool.and_eq_true, decide_eq_true_eq, List.all_eq_true, List.mem_append]
  constructor
  · rintro ⟨hl, hall⟩
    have hsub : d.keys ⊆ e.keys := by
      intro k hk
      obtain ⟨p, hp, rfl⟩ := List.mem_map.mp hk
      by_contra hne
      have h0 := Dict.get?_eq_none_iff.mpr hne
      rw [hall p hp] at h0; cases h0
    have hperm : d.keys.Perm e.keys := by
      refine (hd.subperm hsub).perm_of_length_le ?_
      simp only [Dict.keys, List.length_map]; omega
    have key : ∀ k ∈ d.keys, Dict.get? e k = Dict.get? d k := by
      intro k hk
      obtain ⟨p, hp, rfl⟩ := List.mem_map.mp hk
      rw [hall p hp, Dict.get?_of_mem hd hp]
    rintro k (hk | hk)
    · exact key k (hperm.symm.subset hk)
    · exact key k hk
  · intro h
    have hsub1 : d.keys ⊆ e.keys := by
      intro k hk
      by_contra hne
      have h1 := h k (Or.inr hk)
      rw [Dict.get?_eq_none_iff.mpr hne] at h1
      exact (Dict.get?_eq_none_iff.mp h1.symm) hk
    have hsub2 : e.keys ⊆ d.keys := by
      intro k hk
      by_contra hne
      have h1 := h k (Or.inl hk)
      rw [Dict.get?_eq_none_iff.mpr hne] at h1
      exact (Dict.get?_eq_none_iff.mp h1) hk
    have hperm : d.keys.Perm e.keys := by
      refine (hd.subperm hsub1).perm_of_length_le ?_
      exact (he.subperm hsub2).length_le
    refine ⟨by simpa [Dict.keys] using hperm.length_eq, ?_⟩
    intro p hp
    rw [h p.1 (Or.inr (List.mem_map_of_mem hp)), Dict.get?_of_mem hd hp]

theorem same_comm (d e : Dict String V) : same d e = same e d := by
  unfold same
  congr 1
  apply propext
  constructor <;> (intro h k hk; exact (h k (by simp only [List.mem_append] at hk ⊢; exact hk.symm)).symm)

theorem recordSingle_note (now : Rat) (h : List (Rat × V)) (v : V) : recordSingle now h v = note now h v := by
  unfold recordSingle note Recorded.append
  rcases hl : h.getLast? with _ | l
  · rw [if_neg (by simp)]
    rw [List.getLast?_eq_none_iff] at hl
    rw [hl]; rfl
  · obtain ⟨t, w⟩ := l
    by_cases he : now = t ∧ v = w
    · obtain ⟨rfl, rfl⟩ := he
      simp
    · rw [if_neg (by simpa [Prod.ext_iff, eq_comm] using he)]
      show (if _ then _ else _) = _
      rw [if_pos]
      have := not_and_or.mp he
      simpa [Bool.and_eq_true] using this

/-- Distinct keys, and those of the class. -/
def ObjOK (C : Cfg V) : Obj V → Prop
  | .dict d => d.keys.Nodup
  | .data c d => d.keys = (C.cls c).fields.map (·.name)

theorem ObjOK.nodup {C : Cfg V} (hC : Declared C) {o : Obj V} (h : ObjOK C o) : (entries o).keys.Nodup := by
  cases o with
  | dict d => exact h
  | data c d => rw [entries, h]; exact hC.2 c

theorem put_keys (d : Dict String V) (k : String) (v : V) (h : k ∈ d.map (·.1)) : (put d k v).keys = d.keys := by
  unfold put
  rw [if_pos h]
  simp only [Dict.keys, List.map_map]
  apply List.map_congr_left
  intro p _
  simp only [Function.comp_apply]
  split
  · rename_i hk; exact hk.symm
  · rfl

theorem ObjOK.put {C : Cfg V} {o : Obj V} (h : ObjOK C o) (k : String) (v : V)
    (hk : Spec.lacks k o = false) : ObjOK C (putObj o k v) := by
  cases o with
  | dict d =>
    show (Spec.put d k v).keys.Nodup
    rw [← set_put h]
    exact Dict.WF_set h k v
  | data c d =>
    show (Spec.put d k v).keys = _
    rw [put_keys d k v (by simpa [Spec.lacks] using hk)]
    exact h

/-- Filling an empty dictionary gives the same dictionary, or fails. -/
theorem fill_eq (df : Def V) : ∀ (l d : Dict String V), (d ++ l).keys.Nodup →
    fill df d l = if l.all (fun p => df.okVal p.2) then some (d ++ l) else none := by
  intro l
  induction l with
  | nil => intro d _; simp [fill]
  | cons p l ih =>
    obtain ⟨k, v⟩ := p
    intro d h
    simp only [fill]
    have hk : Dict.get? d k = none := by
      rw [Dict.get?_eq_none_iff]
      simp only [Dict.keys, List.map_append, List.map_cons] at h
      have := (List.nodup_append.mp h).2.2
      intro hk
      exact this k hk k (List.mem_cons_self ..) rfl
    by_cases hv : df.okVal v = true
    · rw [if_pos hv, Dict.mem_set_new hk, ih _ (by simpa [List.append_assoc] using h)]
      by_cases ha : l.all (fun p => df.okVal p.2) = true
      · rw [if_pos ha, if_pos (by rw [List.all_cons, ha, hv]; rfl)]
        simp [List.append_assoc]
      · rw [if_neg ha, if_neg (by rw [List.all_cons, hv]; simpa using ha)]
    · rw [if_neg hv, if_neg (by rw [List.all_cons]; simp [hv])]

theorem fill_nil (df : Def V) (d : Dict String V) (h : d.keys.Nodup) :
    fill df [] d = if d.all (fun p => df.okVal p.2) then some d else none := by
  have := fill_eq df d [] (by simpa using h)
  simpa using this

theorem recordAll_attr (df : Def V) (now : Rat) (n : Nat) (d : Dict String V) : ∀ a : Actor V,
    (recordAll df now n d a).attr = a.attr := by
  unfold recordAll
  induction d with
  | nil => intro a; rfl
  | cons p d ih =>
    intro a
    simp only [List.foldl_cons]
    rw [ih]
    unfold recordKey
    split <;> rfl

/-- What is recorded of a state that has not been recorded before. -/
theorem recordAll_hist (df : Def V) (now : Rat) (n : Nat) (d : Dict String V) : ∀ a : Actor V, d.keys.Nodup →
    (∀ k ∈ d.keys, a.hist n k = []) → ∀ m k, (recordAll df now n d a).hist m k =
      if m = n ∧ df.recording = true then (match Dict.get? d k with | some v => [(now, v)] | none => a.hist m k) else a.hist m k := by
  unfold recordAll
  induction d with
  | nil => intro a _ _ m k; simp
  | cons p d ih =>
    obtain ⟨j, v⟩ := p
    intro a hn h0 m k
    simp only [Dict.keys, List.map_cons, List.nodup_cons] at hn
    simp only [List.foldl_cons]
    have hj : a.hist n j = [] := h0 j (by simp [Dict.keys])
    rw [ih _ hn.2 (by
      intro k hk
      have hne : k ≠ j := fun h => hn.1 (h ▸ hk)
      unfold recordKey
      split
      · simp only [upd, if_true, if_neg hne]
        exact h0 k (by simp only [Dict.keys, List.map_cons, List.mem_cons]; exact Or.inr hk)
      · exact h0 k (by simp only [Dict.keys, List.map_cons, List.mem_cons]; exact Or.inr hk))]
    by_cases hm : m = n ∧ df.recording = true
    · obtain ⟨rfl, hr⟩ := hm
      simp only [hr, and_self, if_true]
      rw [Dict.get?_cons]
      by_cases hk : j = k
      · subst hk
        rw [Dict.get?_eq_none_iff.mpr hn.1]
        simp only [recordKey, hr, if_true, upd]
        rw [recordSingle_note, hj]
        rfl
      · simp only [if_neg hk]
        simp only [recordKey, hr, if_true, upd, if_neg (Ne.symm hk)]
    · rw [if_neg hm, if_neg hm]
      unfold recordKey
      split
      · rename_i hr
        have : m ≠ n := fun h => hm ⟨h, hr⟩
        simp only [upd, if_neg this]
      · rfl

/-- Nothing is lost when all fields take part in the constructor. -/
theorem replaced_self (C : Cls V) (d : Dict String V) (h : ∀ f ∈ C.fields, f.init = true) : replaced C d = d := by
  unfold replaced
  conv_rhs => rw [← List.map_id d]
  apply List.map_congr_left
  intro p _
  split
  · rename_i f hf
    rw [if_pos (h f (List.mem_of_find?_eq_some hf))]; rfl
  · rfl

end Verif.Proxy
