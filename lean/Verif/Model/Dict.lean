/-!
# Python dictionaries

A dictionary is an association list with at most one entry per key kept by
`set`. Iteration order is the list order; no model function depends on it
unless it says so.
-/
namespace Verif

deriving instance DecidableEq for Except


/-- A Python `dict`. -/
abbrev Dict (κ α : Type) := List (κ × α)

namespace Dict
variable {κ α : Type} [DecidableEq κ]

/-- `d.get(k)`. -/
def get? : Dict κ α → κ → Option α
  | [], _ => none
  | (k', v) :: d, k => if k' = k then some v else get? d k

/-- `d.pop(k, None)` ignoring the result. -/
def erase (d : Dict κ α) (k : κ) : Dict κ α := d.filter (fun e => ¬ e.1 = k)

/-- `d[k] = v`: an existing key keeps its place, a new one goes last. -/
def set : Dict κ α → κ → α → Dict κ α
  | [], k, v => [(k, v)]
  | (k', v') :: d, k, v => if k' = k then (k', v) :: d else (k', v') :: set d k v

/-- `k in d`. -/
def has (d : Dict κ α) (k : κ) : Bool := (d.get? k).isSome

/-- `d.keys()`. -/
def keys (d : Dict κ α) : List κ := d.map Prod.fst

@[simp] theorem get?_nil (k : κ) : get? ([] : Dict κ α) k = none := rfl

theorem get?_cons (e : κ × α) (d : Dict κ α) (k : κ) :
    get? (e :: d) k = if e.1 = k then some e.2 else get? d k := by cases e; rfl

theorem get?_set (d : Dict κ α) (k : κ) (v : α) (j : κ) :
    (d.set k v).get? j = if k = j then some v else d.get? j := by
  induction d with
  | nil => simp [set, get?_cons]
  | cons e d ih =>
    unfold set
    split
    · next h => subst h; simp only [get?_cons]; split <;> simp_all
    · next h =>
      simp only [get?_cons, ih]
      split
      · next h2 => subst h2; rw [if_neg (fun h3 => h h3.symm)]
      · rfl

theorem get?_erase (d : Dict κ α) (k j : κ) :
    (d.erase k).get? j = if k = j then none else d.get? j := by
  induction d with
  | nil => simp [erase]
  | cons e d ih =>
    unfold erase at ih ⊢
    simp only [List.filter_cons, get?_cons]
    by_cases h : e.1 = k
    · simp only [h, not_true, decide_false, Bool.false_eq_true, if_false]
      rw [ih]
      split
      · rfl
      · rfl
    · simp only [h, not_false_iff, decide_true, if_true, get?_cons, ih]
      by_cases h2 : e.1 = j
      · subst h2; rw [if_pos rfl, if_pos rfl, if_neg (fun h3 => h h3.symm)]
      · rw [if_neg h2, if_neg h2]

theorem get?_filter (d : Dict κ α) (p : κ → Bool) (j : κ) :
    get? (d.filter (fun e => p e.1)) j = if p j then d.get? j else none := by
  induction d with
  | nil => simp
  | cons e d ih =>
    simp only [List.filter_cons, get?_cons]
    by_cases h : p e.1
    · simp only [h, if_true, get?_cons, ih]
      by_cases h2 : e.1 = j
      · subst h2; simp [h]
      · simp [h2]
    · simp only [h]
      by_cases h2 : e.1 = j
      · subst h2; simp only [Bool.false_eq_true, if_false]; rw [ih]; simp [h]
      · simp only [Bool.false_eq_true, if_false, h2]; exact ih

theorem mem_keys (d : Dict κ α) (k : κ) : k ∈ d.keys ↔ ∃ v, d.get? k = some v := by
  induction d with
  | nil => simp [keys]
  | cons e d ih =>
    unfold keys at ih ⊢
    simp only [List.map_cons, List.mem_cons, get?_cons, ih]
    constructor
    · intro h
      split
      · exact ⟨_, rfl⟩
      · next h2 => rcases h with h | h
                   · exact absurd h.symm h2
                   · exact h
    · intro h
      by_cases h2 : e.1 = k
      · exact .inl h2.symm
      · rw [if_neg h2] at h; exact .inr h

theorem has_iff (d : Dict κ α) (k : κ) : d.has k = true ↔ ∃ v, d.get? k = some v := by
  unfold has; exact Option.isSome_iff_exists

theorem has_false_iff (d : Dict κ α) (k : κ) : d.has k = false ↔ d.get? k = none := by
  unfold has; cases d.get? k <;> simp

theorem mem_of_get? {d : Dict κ α} {k : κ} {v : α} (h : d.get? k = some v) : (k, v) ∈ d := by
  induction d with
  | nil => simp at h
  | cons e d ih =>
    rw [get?_cons] at h
    split at h
    · next h2 => cases h; subst h2; exact List.mem_cons_self
    · exact List.mem_cons_of_mem _ (ih h)

theorem mem_set {d : Dict κ α} {k : κ} {v : α} {e : κ × α} (h : e ∈ d.set k v) : e ∈ d ∨ e = (k, v) := by
  induction d with
  | nil => exact .inr (List.mem_singleton.1 h)
  | cons a d ih =>
    unfold set at h
    split at h
    · next h2 =>
      rcases List.mem_cons.1 h with h | h
      · exact .inr (by rw [h, h2])
      · exact .inl (List.mem_cons_of_mem _ h)
    · rcases List.mem_cons.1 h with h | h
      · exact .inl (by rw [h]; exact List.mem_cons_self)
      · exact (ih h).imp (List.mem_cons_of_mem _) id

/-- The keys stay distinct. -/
theorem nodup_keys_set {d : Dict κ α} (h : d.keys.Nodup) (k : κ) (v : α) : (d.set k v).keys.Nodup := by
  induction d with
  | nil => simp [set, keys]
  | cons a d ih =>
    unfold keys at h ih
    simp only [List.map_cons, List.nodup_cons] at h
    unfold set
    split
    · unfold keys; simpa using h
    · next h2 =>
      unfold keys
      simp only [List.map_cons, List.nodup_cons]
      refine ⟨fun hm => ?_, ih h.2⟩
      obtain ⟨e, he, e1⟩ := List.mem_map.1 hm
      rcases mem_set he with he | he
      · exact h.1 (List.mem_map.2 ⟨e, he, e1⟩)
      · subst he; exact h2 e1.symm

theorem get?_of_mem {d : Dict κ α} (h : d.keys.Nodup) {k : κ} {v : α} (hm : (k, v) ∈ d) : d.get? k = some v := by
  induction d with
  | nil => simp at hm
  | cons a d ih =>
    unfold keys at h ih
    simp only [List.map_cons, List.nodup_cons] at h
    rw [get?_cons]
    rcases List.mem_cons.1 hm with hm | hm
    · subst hm; simp
    · rw [if_neg]
      · exact ih h.2 hm
      · intro e; exact h.1 (List.mem_map.2 ⟨_, hm, e.symm⟩)

omit [DecidableEq κ] in
theorem nodup_keys_filter {d : Dict κ α} (h : d.keys.Nodup) (p : κ × α → Bool) : (keys (d.filter p)).Nodup :=
  h.sublist ((List.filter_sublist).map _)

theorem nodup_keys_erase {d : Dict κ α} (h : d.keys.Nodup) (k : κ) : (d.erase k).keys.Nodup :=
  nodup_keys_filter h _

theorem mem_erase {d : Dict κ α} {k : κ} {e : κ × α} (h : e ∈ d.erase k) : e ∈ d ∧ e.1 ≠ k := by
  have := List.mem_filter.1 h
  exact ⟨this.1, by simpa using this.2⟩

theorem mem_set_self (d : Dict κ α) (k : κ) (v : α) : (k, v) ∈ d.set k v :=
  mem_of_get? (by rw [get?_set, if_pos rfl])

end Dict
end Verif
