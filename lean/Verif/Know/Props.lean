import Verif.Know.Model

/-!
# Properties C19 and C20

Specification: knowledge is a partial function from names to values, and each single operation is a total relation
between the function before, the answer and the function after. It does not mention dictionaries.
-/

namespace Verif.Know

variable {κ V : Type} [DecidableEq κ]

/-- A partial map. -/
abbrev Map (κ V : Type) := κ → Option V

/-- `Single op m r m'`: the documented effect of a single knowledge operation. -/
inductive Single : Op κ V → Map κ V → Out κ V → Map κ V → Prop
  /-- A get answers with the value (`None` if there is none) … -/
  | get {n must m} : (must = false ∨ ∃ v, m n = some v) → Single (.get n must) m (.value (m n)) m
  /-- … and raises exactly if the name must exist and does not. -/
  | getMissing {n m} : m n = none → Single (.get n true) m .raised m
  | set {n v o m m'} : (o = true ∨ m n = none) → m' n = some v → (∀ k, k ≠ n → m' k = m k) →
      Single (.set n v o) m .done m'
  | setExists {n v w m} : m n = some w → Single (.set n v false) m .raised m
  | clear {n v m m'} : m n = some v → m' n = none → (∀ k, k ≠ n → m' k = m k) → Single (.clear n) m .done m'
  | clearMissing {n m} : m n = none → Single (.clear n) m .raised m
  | getClear {n v m m'} : m n = some v → m' n = none → (∀ k, k ≠ n → m' k = m k) →
      Single (.getClear n) m (.value (some v)) m'
  | getClearMissing {n m} : m n = none → Single (.getClear n) m .raised m

/-- The specification determines answer and effect. -/
theorem single_det {op : Op κ V} {m m1 m2 : Map κ V} {r1 r2 : Out κ V} (h1 : Single op m r1 m1)
    (h2 : Single op m r2 m2) : r1 = r2 ∧ m1 = m2 := by
  have ext : ∀ {n : κ} {a b : Map κ V}, a n = b n → (∀ k, k ≠ n → a k = m k) → (∀ k, k ≠ n → b k = m k) →
      a = b := by
    intro n a b h ha hb
    funext k
    by_cases hk : k = n
    · rw [hk]; exact h
    · rw [ha k hk, hb k hk]
  cases h1 with
  | get h =>
    cases h2 with
    | get _ => exact ⟨rfl, rfl⟩
    | getMissing h' => simp [h'] at h
  | getMissing h =>
    cases h2 with
    | get h' => simp [h] at h'
    | getMissing _ => exact ⟨rfl, rfl⟩
  | set a b d =>
    cases h2 with
    | set a' b' d' => exact ⟨rfl, ext (b.trans b'.symm) d d'⟩
    | setExists h => simp [h] at a
  | setExists h =>
    cases h2 with
    | set a' b' d' => simp [h] at a'
    | setExists _ => exact ⟨rfl, rfl⟩
  | clear a b d =>
    cases h2 with
    | clear a' b' d' => exact ⟨rfl, ext (b.trans b'.symm) d d'⟩
    | clearMissing h => simp [h] at a
  | clearMissing h =>
    cases h2 with
    | clear a' b' d' => simp [h] at a'
    | clearMissing _ => exact ⟨rfl, rfl⟩
  | getClear a b d =>
    cases h2 with
    | getClear a' b' d' =>
      rw [a] at a'
      simp only [Option.some.injEq] at a'
      exact ⟨by rw [a'], ext (b.trans b'.symm) d d'⟩
    | getClearMissing h => simp [h] at a
  | getClearMissing h =>
    cases h2 with
    | getClear a' b' d' => simp [h] at a'
    | getClearMissing _ => exact ⟨rfl, rfl⟩

/-- The single operations. -/
def Op.isSingle : Op κ V → Bool
  | .get .. | .set .. | .clear .. | .getClear .. => true
  | _ => false

theorem has_eq (d : Dict κ V) (n : κ) : d.has n = (d.get? n).isSome := rfl

theorem setK_spec (d : Dict κ V) (n : κ) (v : V) (o : Bool) :
    Single (.set n v o) d.get? (setK d n v o).2 (setK d n v o).1.get? := by
  unfold setK
  cases h : d.get? n with
  | none =>
    have : d.has n = false := by simp [has_eq, h]
    simp only [this, Bool.false_and, Bool.false_eq_true, if_false]
    exact .set (Or.inr h) (Dict.get?_set_self ..) (fun k hk => Dict.get?_set_ne _ _ (Ne.symm hk))
  | some w =>
    have : d.has n = true := by simp [has_eq, h]
    cases o with
    | true =>
      simp only [this, Bool.not_true, Bool.and_false, Bool.false_eq_true, if_false]
      exact .set (Or.inl rfl) (Dict.get?_set_self ..) (fun k hk => Dict.get?_set_ne _ _ (Ne.symm hk))
    | false =>
      simp only [this, Bool.not_false, Bool.and_true, if_true]
      exact .setExists h

theorem clearK_spec (d : Dict κ V) (n : κ) :
    Single (.clear n) d.get? (clearK d n).2 (clearK d n).1.get? := by
  unfold clearK
  cases h : d.get? n with
  | none =>
    have : d.has n = false := by simp [has_eq, h]
    simp only [this, Bool.not_false, if_true]
    exact .clearMissing h
  | some w =>
    have : d.has n = true := by simp [has_eq, h]
    simp only [this, Bool.not_true, Bool.false_eq_true, if_false]
    exact .clear h (Dict.get?_del_self ..) (fun k hk => Dict.get?_del_ne _ (Ne.symm hk))

theorem getK_spec (d : Dict κ V) (n : κ) (must : Bool) :
    Single (.get n must) d.get? (getK d n must) d.get? := by
  unfold getK
  cases h : d.get? n with
  | none =>
    have : d.has n = false := by simp [has_eq, h]
    cases must with
    | true => simp only [this, Bool.not_false, Bool.and_self, if_true]; exact .getMissing h
    | false =>
      simp only [this, Bool.false_and, Bool.false_eq_true, if_false]
      rw [← h]; exact .get (Or.inl rfl)
  | some w =>
    have : d.has n = true := by simp [has_eq, h]
    simp only [this, Bool.not_true, Bool.and_false, Bool.false_eq_true, if_false]
    rw [← h]; exact .get (Or.inr ⟨w, h⟩)

theorem getClear_spec (d : Dict κ V) (n : κ) :
    Single (.getClear n) d.get? (getClear d n).2 (getClear d n).1.get? := by
  unfold getClear getK clearK
  cases h : d.get? n with
  | none =>
    have : d.has n = false := by simp [has_eq, h]
    simp only [this, Bool.not_false, Bool.and_self, if_true]
    exact .getClearMissing h
  | some w =>
    have : d.has n = true := by simp [has_eq, h]
    simp only [this, Bool.not_true, Bool.and_false, Bool.false_eq_true, if_false]
    exact .getClear h (Dict.get?_del_self ..) (fun k hk => Dict.get?_del_ne _ (Ne.symm hk))

/-- Every call of a list has the documented effect. -/
inductive Behaves : List (Op κ V) → Map κ V → List (Out κ V) → Map κ V → Prop
  | nil {m} : Behaves [] m [] m
  | cons {op ops m r m1 rs m2} : Single op m r m1 → Behaves ops m1 rs m2 → Behaves (op :: ops) m (r :: rs) m2

/-- **C19.** For every sequence of single knowledge operations, from any knowledge, answers and effects are exactly
those of a guarded finite map. -/
theorem c19_guarded_map (ops : List (Op κ V)) : ∀ (d : Dict κ V), (∀ op ∈ ops, op.isSingle = true) →
    Behaves ops d.get? (run d ops).2 (run d ops).1.get? := by
  induction ops with
  | nil => intro d _; exact .nil
  | cons op ops ih =>
    intro d h
    simp only [run]
    refine .cons ?_ (ih _ (fun o ho => h o (List.mem_cons_of_mem _ ho)))
    have hs := h op (by simp)
    cases op with
    | get n must => exact getK_spec d n must
    | set n v o => exact setK_spec d n v o
    | clear n => exact clearK_spec d n
    | getClear n => exact getClear_spec d n
    | setBulk _ _ => simp [Op.isSingle] at hs
    | clearBulk _ => simp [Op.isSingle] at hs
    | getBulk _ _ => simp [Op.isSingle] at hs
    | getClearBulk _ => simp [Op.isSingle] at hs

example : (run ([] : Dict String Int)
    [.set "a" 1 false, .set "a" 2 false, .set "a" 3 true, .set "b" 4 false, .getClear "a", .get "a" true,
     .get "a" false, .get "b" true, .clear "a"]).2 =
    [.done, .raised, .done, .done, .value (some 3), .raised, .value none, .value (some 4), .raised] := by
  decide +kernel

/-! ## C20 -/

/-- What a bulk call stands for, as single calls. -/
def singles : Op κ V → List (Op κ V)
  | .setBulk kv o => kv.map (fun p => .set p.1 p.2 o)
  | .clearBulk ns => ns.map .clear
  | .getClearBulk ns => ns.map .getClear
  | .getBulk ns must => ns.map (fun n => .get n must)
  | op => [op]

/-- All single calls are allowed, one after the other. -/
inductive AllOk : List (Op κ V) → Map κ V → Map κ V → Prop
  | nil {m} : AllOk [] m m
  | cons {op ops m r m1 m2} : Single op m r m1 → r ≠ .raised → AllOk ops m1 m2 → AllOk (op :: ops) m m2

/-- The single calls up to and without the first one that raises, and that one. -/
inductive StopsAt : List (Op κ V) → Map κ V → Map κ V → Prop
  | here {op ops m m1} : Single op m .raised m1 → StopsAt (op :: ops) m m1
  | later {op ops m r m1 m2} : Single op m r m1 → r ≠ .raised → StopsAt ops m1 m2 → StopsAt (op :: ops) m m2

theorem setBulk_spec (kv : List (κ × V)) (o : Bool) : ∀ d : Dict κ V,
    ((setBulk d kv o).2 = .done ∧ AllOk (singles (.setBulk kv o)) d.get? (setBulk d kv o).1.get?) ∨
    ((setBulk d kv o).2 = .raised ∧ StopsAt (singles (.setBulk kv o)) d.get? (setBulk d kv o).1.get?) := by
  induction kv with
  | nil => intro d; exact Or.inl ⟨rfl, .nil⟩
  | cons p kv ih =>
    intro d
    obtain ⟨n, v⟩ := p
    have hs := setK_spec d n v o
    have hc : (setK d n v o).2 = .done ∨ (setK d n v o).2 = .raised := by
      unfold setK; split <;> simp
    simp only [setBulk, singles, List.map_cons] at ih ⊢
    cases hr : setK d n v o with
    | mk d1 r =>
      rw [hr] at hs hc
      simp only at hs hc
      rcases hc with rfl | rfl
      · rcases ih d1 with ⟨h1, h2⟩ | ⟨h1, h2⟩
        · exact Or.inl ⟨h1, .cons hs (by simp) h2⟩
        · exact Or.inr ⟨h1, .later hs (by simp) h2⟩
      · exact Or.inr ⟨rfl, .here hs⟩

theorem clearBulk_spec (ns : List κ) : ∀ d : Dict κ V,
    ((clearBulk d ns).2 = .done ∧ AllOk (singles (.clearBulk ns)) d.get? (clearBulk d ns).1.get?) ∨
    ((clearBulk d ns).2 = .raised ∧ StopsAt (singles (.clearBulk ns)) d.get? (clearBulk d ns).1.get?) := by
  induction ns with
  | nil => intro d; exact Or.inl ⟨rfl, .nil⟩
  | cons n ns ih =>
    intro d
    have hs := clearK_spec d n
    have hc : (clearK d n).2 = .done ∨ (clearK d n).2 = .raised := by
      unfold clearK; split <;> simp
    simp only [clearBulk, singles, List.map_cons] at ih ⊢
    cases hr : clearK d n with
    | mk d1 r =>
      rw [hr] at hs hc
      simp only at hs hc
      rcases hc with rfl | rfl
      · rcases ih d1 with ⟨h1, h2⟩ | ⟨h1, h2⟩
        · exact Or.inl ⟨h1, .cons hs (by simp) h2⟩
        · exact Or.inr ⟨h1, .later hs (by simp) h2⟩
      · exact Or.inr ⟨rfl, .here hs⟩

theorem getClearBulk_spec (ns : List κ) : ∀ (d : Dict κ V) (acc : Dict κ (Option V)),
    ((∃ r, (getClearBulk d ns acc).2 = .values r ∧
        (ns.Nodup → ∀ k, Dict.get? r k = if k ∈ ns then some (d.get? k) else acc.get? k)) ∧
      AllOk (singles (.getClearBulk ns)) d.get? (getClearBulk d ns acc).1.get?) ∨
    ((getClearBulk d ns acc).2 = .raised ∧
      StopsAt (singles (.getClearBulk ns)) d.get? (getClearBulk d ns acc).1.get?) := by
  induction ns with
  | nil => intro d acc; exact Or.inl ⟨⟨acc, rfl, by simp⟩, .nil⟩
  | cons n ns ih =>
    intro d acc
    have hs := getClear_spec d n
    simp only [getClearBulk, singles, List.map_cons] at ih ⊢
    cases hr : getClear d n with
    | mk d1 r =>
      rw [hr] at hs
      simp only at hs
      generalize hm1 : d1.get? = m1 at hs
      cases hs with
      | @getClear _ v _ _ h1 h2 h3 =>
        subst hm1
        simp only
        rcases ih d1 (acc.set n (some v)) with ⟨⟨res, g1, g2⟩, h4⟩ | ⟨g, h4⟩
        · refine Or.inl ⟨⟨res, g1, ?_⟩, .cons (.getClear h1 h2 h3) (by simp) h4⟩
          intro hnd k
          have hnd' := List.nodup_cons.1 hnd
          rw [g2 hnd'.2 k]
          by_cases hk : k = n
          · subst hk
            simp [hnd'.1, h1]
          · rw [h3 k hk, Dict.get?_set_ne _ _ (Ne.symm hk)]
            simp [hk]
        · exact Or.inr ⟨g, .later (.getClear h1 h2 h3) (by simp) h4⟩
      | getClearMissing h =>
        simp only
        rw [hm1]
        exact Or.inr ⟨trivial, .here (.getClearMissing h)⟩

theorem allOk_not_stops {ops : List (Op κ V)} {m m1 m2 : Map κ V} (h : AllOk ops m m1) (h' : StopsAt ops m m2) :
    False := by
  induction h' generalizing m1 with
  | here h1 =>
    cases h with
    | cons g1 g2 _ => exact g2 (single_det g1 h1).1
  | later h1 h2 _ ih =>
    cases h with
    | cons g1 g2 g3 =>
      obtain ⟨_, e⟩ := single_det g1 h1
      subst e
      exact ih g3

/-- **C20, the part that holds.** A bulk set, clear or get-and-clear succeeds exactly when each of its single operations
is allowed in turn, and then has the effect of performing them all. If one is not allowed it raises. Missing: that the
knowledge is then unchanged; the code keeps the effects of the operations before the offending one, as the second part
says exactly (`c20_set_not_atomic`, `c20_clear_not_atomic`, `c20_get_and_clear_not_atomic`). -/
theorem c20_bulk_partial (d : Dict κ V) (op : Op κ V)
    (hop : (∃ kv o, op = .setBulk kv o) ∨ (∃ ns, op = .clearBulk ns) ∨ (∃ ns, op = .getClearBulk ns)) :
    ((step d op).2 ≠ .raised ↔ ∃ m, AllOk (singles op) d.get? m) ∧
    ((step d op).2 ≠ .raised → AllOk (singles op) d.get? (step d op).1.get?) ∧
    ((step d op).2 = .raised → StopsAt (singles op) d.get? (step d op).1.get?) := by
  have main : ((step d op).2 ≠ .raised ∧ AllOk (singles op) d.get? (step d op).1.get?) ∨
      ((step d op).2 = .raised ∧ StopsAt (singles op) d.get? (step d op).1.get?) := by
    rcases hop with ⟨kv, o, rfl⟩ | ⟨ns, rfl⟩ | ⟨ns, rfl⟩
    · rcases setBulk_spec kv o d with ⟨h1, h2⟩ | h
      · exact Or.inl ⟨by simp only [step]; rw [h1]; simp, h2⟩
      · exact Or.inr h
    · rcases clearBulk_spec ns d with ⟨h1, h2⟩ | h
      · exact Or.inl ⟨by simp only [step]; rw [h1]; simp, h2⟩
      · exact Or.inr h
    · rcases getClearBulk_spec ns d [] with ⟨⟨r, h1, _⟩, h2⟩ | h
      · exact Or.inl ⟨by simp only [step]; rw [h1]; simp, h2⟩
      · exact Or.inr h
  rcases main with ⟨h1, h2⟩ | ⟨h1, h2⟩
  · exact ⟨⟨fun _ => ⟨_, h2⟩, fun _ => h1⟩, fun _ => h2, fun h => absurd h h1⟩
  · exact ⟨⟨fun h => absurd h1 h, fun ⟨m, hm⟩ => (allOk_not_stops hm h2).elim⟩, fun h => absurd h1 h, fun _ => h2⟩

/-- A successful bulk get-and-clear of distinct names returns each name's value and removes exactly these names. -/
theorem c20_get_and_clear (d : Dict κ V) (ns : List κ) (hnd : ns.Nodup)
    (hok : (step d (.getClearBulk ns)).2 ≠ .raised) :
    ∃ r, (step d (.getClearBulk ns)).2 = .values r ∧
      (∀ k, Dict.get? r k = if k ∈ ns then some (d.get? k) else none) ∧
      (∀ k ∈ ns, ∃ v, d.get? k = some v) ∧
      (∀ k, (step d (.getClearBulk ns)).1.get? k = if k ∈ ns then none else d.get? k) := by
  simp only [step] at hok ⊢
  rcases getClearBulk_spec ns d [] with ⟨⟨r, h1, h2⟩, h3⟩ | ⟨h1, _⟩
  · refine ⟨r, h1, ?_, ?_⟩
    · intro k; rw [h2 hnd k]; simp
    · have : ∀ (ns : List κ) (m m' : Map κ V), ns.Nodup → AllOk (ns.map .getClear) m m' →
          (∀ k ∈ ns, ∃ v, m k = some v) ∧ ∀ k, m' k = if k ∈ ns then none else m k := by
        intro ns
        induction ns with
        | nil => intro m m' _ h; cases h; simp
        | cons n ns ih =>
          intro m m' hnd h
          have hnd' := List.nodup_cons.1 hnd
          cases h with
          | cons g1 g2 g3 =>
            cases g1 with
            | @getClear _ v _ m1 a b e =>
              obtain ⟨i1, i2⟩ := ih _ _ hnd'.2 g3
              constructor
              · intro k hk
                rcases List.mem_cons.1 hk with rfl | hk
                · exact ⟨v, a⟩
                · have hne : k ≠ n := fun e => hnd'.1 (e ▸ hk)
                  have := i1 k hk
                  rwa [e k hne] at this
              · intro k
                rw [i2 k]
                by_cases hk : k = n
                · subst hk; simp [hnd'.1, b]
                · simp [hk, e k hk]
            | getClearMissing _ => simp at g2
      exact this ns _ _ hnd h3
  · exact absurd h1 hok

example : (step ([("a", 1), ("b", 2), ("c", 3)] : Dict String Int) (.getClearBulk ["c", "a"])) =
    ([("b", 2)], .values [("c", some 3), ("a", some 1)]) := by decide +kernel

/-- Reading in bulk changes nothing and answers for every name as single reads do. -/
theorem c20_get_bulk (d : Dict κ V) (ns : List κ) (must : Bool) :
    (step d (.getBulk ns must)).1 = d ∧
    ((step d (.getBulk ns must)).2 = .raised ↔ must = true ∧ ∃ n ∈ ns, d.get? n = none) ∧
    (∀ r, (step d (.getBulk ns must)).2 = .values r →
      ∀ k, Dict.get? r k = if k ∈ ns then some (d.get? k) else none) := by
  have main : ∀ (ns : List κ) (acc : Dict κ (Option V)),
      (getBulk d must ns acc = .raised ↔ must = true ∧ ∃ n ∈ ns, d.get? n = none) ∧
      (∀ r, getBulk d must ns acc = .values r →
        ∀ k, Dict.get? r k = if k ∈ ns then some (d.get? k) else acc.get? k) := by
    intro ns
    induction ns with
    | nil => intro acc; exact ⟨by simp [getBulk], by intro r h k; simp [getBulk] at h; subst h; simp⟩
    | cons n ns ih =>
      intro acc
      have hs := getK_spec d n must
      simp only [getBulk]
      generalize hr : getK d n must = r0 at hs
      cases hs with
      | get h =>
        obtain ⟨h1, h2⟩ := ih (acc.set n (d.get? n))
        refine ⟨?_, ?_⟩
        · rw [h1]
          constructor
          · rintro ⟨a, k, hk, b⟩; exact ⟨a, k, List.mem_cons_of_mem _ hk, b⟩
          · rintro ⟨a, k, hk, b⟩
            refine ⟨a, ?_⟩
            rcases List.mem_cons.1 hk with rfl | hk
            · rcases h with h | ⟨v, h⟩
              · rw [a] at h; simp at h
              · rw [b] at h; simp at h
            · exact ⟨k, hk, b⟩
        · intro r hres k
          rw [h2 r hres k]
          by_cases hk : k = n
          · subst hk; simp
          · rw [Dict.get?_set_ne _ _ (Ne.symm hk)]; simp [hk]
      | getMissing h => exact ⟨by simp [h], by simp⟩
  refine ⟨rfl, (main ns []).1, ?_⟩
  intro r h k
  rw [(main ns []).2 r h k]; simp

/-- **C20 is false of the code**: a refused bulk set keeps the entries before the offending one. -/
theorem c20_set_not_atomic :
    step ([("b", 0)] : Dict String Int) (.setBulk [("a", 1), ("b", 2)] false) = ([("b", 0), ("a", 1)], .raised) := by
  decide +kernel

/-- A refused bulk clear has removed the names before the offending one. -/
theorem c20_clear_not_atomic :
    step ([("a", 0)] : Dict String Int) (.clearBulk ["a", "b"]) = ([], .raised) := by decide +kernel

/-- A refused bulk get-and-clear has removed the names before the offending one and returns nothing: they are lost. -/
theorem c20_get_and_clear_not_atomic :
    step ([("a", 7)] : Dict String Int) (.getClearBulk ["a", "b"]) = ([], .raised) := by decide +kernel

end Verif.Know
