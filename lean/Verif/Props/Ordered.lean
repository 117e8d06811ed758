import Verif.Spec.Ordered
import Verif.Proofs.Count
/-!
# C37: the record of what was ordered is exact
-/
namespace Verif.Props
open Verif.Ordered
open Verif.Spec.Ordered

/-- Intervals are not empty, increase, and do not touch. `lo` is below the first one. -/
def Apart : Int → List (Int × Int) → Prop
  | _, [] => True
  | lo, i :: rest => lo + 1 < i.1 ∧ i.1 ≤ i.2 ∧ Apart i.2 rest

theorem Apart.mono {lo lo' : Int} {l : List (Int × Int)} (h : Apart lo l) (hl : lo' ≤ lo) : Apart lo' l := by
  cases l with
  | nil => trivial
  | cons i rest => exact ⟨by have := h.1; omega, h.2⟩

/-- The elements. -/
def Elem (l : List (Int × Int)) (y : Int) : Prop := ∃ i ∈ l, i.1 ≤ y ∧ y ≤ i.2

theorem contains_iff (l : IntervalList) (y : Int) : l.contains y = true ↔ Elem l y := by
  simp [IntervalList.contains, Elem]

theorem elem_cons (i : Int × Int) (l : List (Int × Int)) (y : Int) :
    Elem (i :: l) y ↔ (i.1 ≤ y ∧ y ≤ i.2) ∨ Elem l y := by
  simp [Elem]

theorem elem_nil (y : Int) : ¬ Elem [] y := by simp [Elem]

theorem Apart.above {lo : Int} {l : List (Int × Int)} (h : Apart lo l) {y : Int} (hy : Elem l y) : lo + 1 < y := by
  induction l generalizing lo with
  | nil => exact absurd hy (elem_nil y)
  | cons i rest ih =>
    rcases (elem_cons i rest y).1 hy with hy | hy
    · have := h.1; omega
    · have := ih h.2.2 hy; have := h.1; have := h.2.1; omega

theorem len_cons (i : Int × Int) (l : IntervalList) :
    IntervalList.len (i :: l) = i.2 - i.1 + 1 + IntervalList.len l := by
  simp [IntervalList.len]

theorem len_nil : IntervalList.len [] = 0 := rfl

/-- What `scan` does, for an integer above the first interval. -/
theorem scan_spec {x : Int} {prev : Int × Int} {rest : List (Int × Int)} {lo : Int} (h : Apart lo (prev :: rest))
    (hx : prev.2 < x) :
    Apart lo (scan x prev rest) ∧ (∀ y, Elem (scan x prev rest) y ↔ y = x ∨ Elem (prev :: rest) y) ∧
    (¬ Elem (prev :: rest) x → IntervalList.len (scan x prev rest) = IntervalList.len (prev :: rest) + 1) ∧
    (Elem (prev :: rest) x → IntervalList.len (scan x prev rest) = IntervalList.len (prev :: rest)) := by
  induction rest generalizing prev lo with
  | nil =>
    obtain ⟨h1, h2, _⟩ := h
    unfold scan
    split
    · refine ⟨⟨h1, by simp only; omega, trivial⟩, fun y => ?_, fun _ => ?_, fun he => ?_⟩
      · simp only [elem_cons, elem_nil, or_false]; omega
      · simp only [len_cons, len_nil]; omega
      · simp only [elem_cons, elem_nil, or_false] at he; omega
    · refine ⟨⟨h1, h2, by simp only; omega, by simp, trivial⟩, fun y => ?_, fun _ => ?_, fun he => ?_⟩
      · simp only [elem_cons, elem_nil, or_false]; omega
      · simp only [len_cons, len_nil]; omega
      · simp only [elem_cons, elem_nil, or_false] at he; omega
  | cons next rest ih =>
    obtain ⟨h1, h2, h3, h4, h5⟩ := h
    have hab : ∀ y, Elem rest y → next.2 + 1 < y := fun y hy => h5.above hy
    unfold scan
    split
    · split
      · refine ⟨⟨h1, by simp only; omega, h5⟩, fun y => ?_, fun _ => ?_, fun he => ?_⟩
        · simp only [elem_cons]; grind
        · simp only [len_cons]; omega
        · simp only [elem_cons] at he
          rcases he with he | he | he
          · omega
          · omega
          · have := hab x he; omega
      · refine ⟨⟨h1, by simp only; omega, by simp only; omega, h4, h5⟩, fun y => ?_, fun _ => ?_, fun he => ?_⟩
        · simp only [elem_cons]; grind
        · simp only [len_cons]; omega
        · simp only [elem_cons] at he
          rcases he with he | he | he
          · omega
          · omega
          · have := hab x he; omega
    · split
      · refine ⟨⟨h1, h2, by simp only; omega, by simp, by simp only; omega, h4, h5⟩, fun y => ?_, fun _ => ?_,
          fun he => ?_⟩
        · simp only [elem_cons]; grind
        · simp only [len_cons]; omega
        · simp only [elem_cons] at he
          rcases he with he | he | he
          · omega
          · omega
          · have := hab x he; omega
      · split
        · refine ⟨⟨h1, h2, by simp only; omega, by simp only; omega, h5⟩, fun y => ?_, fun _ => ?_, fun he => ?_⟩
          · simp only [elem_cons]; grind
          · simp only [len_cons]; omega
          · simp only [elem_cons] at he
            rcases he with he | he | he
            · omega
            · omega
            · have := hab x he; omega
        · split
          · refine ⟨⟨h1, h2, h3, h4, h5⟩, fun y => ?_, fun hne => ?_, fun _ => rfl⟩
            · simp only [elem_cons]; grind
            · exact absurd ((elem_cons _ _ _).2 (Or.inr ((elem_cons _ _ _).2 (Or.inl (by omega))))) hne
          · obtain ⟨i1, i2, i3, i4⟩ := ih (prev := next) (lo := prev.2) ⟨h3, h4, h5⟩ (by omega)
            refine ⟨⟨h1, h2, i1⟩, fun y => ?_, fun hne => ?_, fun he => ?_⟩
            · rw [elem_cons, i2 y, elem_cons prev]; grind
            · rw [len_cons, len_cons prev, i3 (fun he => hne ((elem_cons _ _ _).2 (Or.inr he)))]; omega
            · rw [len_cons, len_cons prev, i4]
              rcases (elem_cons _ _ _).1 he with he | he
              · omega
              · exact he

/-- The invariant of interval lists. -/
def Canon (l : IntervalList) : Prop := ∃ lo, Apart lo l

theorem add_spec {l : IntervalList} (h : Canon l) (x : Int) :
    Canon (l.add x) ∧ (∀ y, Elem (l.add x) y ↔ y = x ∨ Elem l y) ∧
    (¬ Elem l x → IntervalList.len (l.add x) = IntervalList.len l + 1) ∧
    (Elem l x → IntervalList.len (l.add x) = IntervalList.len l) := by
  obtain ⟨lo, h⟩ := h
  cases l with
  | nil =>
    refine ⟨⟨x - 2, by simp only; omega, by simp, trivial⟩, fun y => ?_, fun _ => ?_, fun he => absurd he (elem_nil x)⟩
    · simp only [IntervalList.add, elem_cons, elem_nil, or_false]; omega
    · simp only [IntervalList.add, len_cons, len_nil]; omega
  | cons i rest =>
    obtain ⟨h1, h2, h3⟩ := h
    have hab : ∀ y, Elem rest y → i.2 + 1 < y := fun y hy => h3.above hy
    unfold IntervalList.add
    simp only
    split
    · refine ⟨⟨x - 2, by simp only; omega, by simp, by simp only; omega, h2, h3⟩, fun y => ?_, fun _ => ?_, fun he => ?_⟩
      · simp only [elem_cons]; grind
      · simp only [len_cons]; omega
      · simp only [elem_cons] at he
        rcases he with he | he
        · omega
        · have := hab x he; omega
    · split
      · refine ⟨⟨x - 2, by simp only; omega, by simp only; omega, h3⟩, fun y => ?_, fun _ => ?_, fun he => ?_⟩
        · simp only [elem_cons]; grind
        · simp only [len_cons]; omega
        · simp only [elem_cons] at he
          rcases he with he | he
          · omega
          · have := hab x he; omega
      · split
        · refine ⟨⟨lo, h1, h2, h3⟩, fun y => ?_, fun hne => ?_, fun _ => rfl⟩
          · simp only [elem_cons]; grind
          · exact absurd ((elem_cons _ _ _).2 (Or.inl (by omega))) hne
        · obtain ⟨a, b⟩ := scan_spec (x := x) (prev := i) (rest := rest) (lo := lo) ⟨h1, h2, h3⟩ (by omega)
          exact ⟨⟨lo, a⟩, b⟩

/-- Two canonical lists with the same elements are the same list. -/
theorem canon_ext {l m : IntervalList} (hl : Canon l) (hm : Canon m) (h : ∀ y, Elem l y ↔ Elem m y) : l = m := by
  obtain ⟨lo, hl⟩ := hl
  obtain ⟨lo', hm⟩ := hm
  induction l generalizing m lo lo' with
  | nil =>
    cases m with
    | nil => rfl
    | cons j m => exact absurd ((h j.1).2 ((elem_cons _ _ _).2 (Or.inl ⟨Int.le_refl _, hm.2.1⟩))) (elem_nil _)
  | cons i l ih =>
    cases m with
    | nil => exact absurd ((h i.1).1 ((elem_cons _ _ _).2 (Or.inl ⟨Int.le_refl _, hl.2.1⟩))) (elem_nil _)
    | cons j m =>
      have hla : ∀ y, Elem l y → i.2 + 1 < y := fun y hy => hl.2.2.above hy
      have hma : ∀ y, Elem m y → j.2 + 1 < y := fun y hy => hm.2.2.above hy
      have hi := hl.2.1
      have hj := hm.2.1
      have e1 := (elem_cons j m i.1).1 ((h i.1).1 ((elem_cons _ _ _).2 (Or.inl ⟨Int.le_refl _, hi⟩)))
      have e2 := (elem_cons i l j.1).1 ((h j.1).2 ((elem_cons _ _ _).2 (Or.inl ⟨Int.le_refl _, hj⟩)))
      have hfst : i.1 = j.1 := by
        rcases e1 with e1 | e1 <;> rcases e2 with e2 | e2
        · omega
        · have := hla _ e2; omega
        · have := hma _ e1; omega
        · have := hla _ e2; have := hma _ e1; omega
      -- the end of the shorter one plus one would be in the other only
      have hsnd : i.2 = j.2 := by
        refine Classical.byContradiction fun hne => ?_
        rcases (show i.2 < j.2 ∨ j.2 < i.2 by omega) with hlt | hlt
        · have := (elem_cons i l (i.2 + 1)).1 ((h (i.2 + 1)).2 ((elem_cons _ _ _).2 (Or.inl (by omega))))
          rcases this with this | this
          · omega
          · have := hla _ this; omega
        · have := (elem_cons j m (j.2 + 1)).1 ((h (j.2 + 1)).1 ((elem_cons _ _ _).2 (Or.inl (by omega))))
          rcases this with this | this
          · omega
          · have := hma _ this; omega
      have hij : i = j := Prod.ext hfst hsnd
      subst hij
      congr 1
      refine ih (fun y => ?_) _ hl.2.2 _ hm.2.2
      have := h y
      rw [elem_cons, elem_cons] at this
      constructor
      · intro hy
        have h1 := hla y hy
        exact (this.1 (Or.inr hy)).resolve_left (by omega)
      · intro hy
        have h1 := hma y hy
        exact (this.2 (Or.inr hy)).resolve_left (by omega)

theorem distinct_snoc {α : Type} [DecidableEq α] (xs : List α) (x : α) :
    distinct (xs ++ [x]) = distinct xs + (if x ∈ xs then 0 else 1) := by
  induction xs with
  | nil => simp [distinct]
  | cons y xs ih =>
    simp only [List.cons_append, distinct, ih, List.mem_append, List.mem_cons, List.not_mem_nil, or_false]
    by_cases h1 : y ∈ xs <;> by_cases h2 : x = y <;> by_cases h3 : x ∈ xs <;> simp_all [eq_comm] <;> omega

theorem adds_inv (xs : List Int) :
    Canon (xs.foldl IntervalList.add []) ∧ (∀ y, Elem (xs.foldl IntervalList.add []) y ↔ y ∈ xs) ∧
    IntervalList.len (xs.foldl IntervalList.add []) = distinct xs := by
  induction xs using snoc_induction with
  | nil => exact ⟨⟨0, trivial⟩, fun y => by simp [elem_nil], rfl⟩
  | snoc xs x ih =>
    obtain ⟨h1, h2, h3⟩ := ih
    simp only [List.foldl_append, List.foldl_cons, List.foldl_nil]
    obtain ⟨a1, a2, a3, a4⟩ := add_spec h1 x
    refine ⟨a1, fun y => ?_, ?_⟩
    · rw [a2 y, h2 y]; simp [or_comm]
    · rw [distinct_snoc]
      by_cases hx : x ∈ xs
      · rw [a4 ((h2 x).2 hx), h3]; simp [hx]
      · rw [a3 (fun he => hx ((h2 x).1 he)), h3]; simp [hx]

/-- **C37, interval lists.** After any additions an interval list contains exactly what was added, and its length is
the number of different integers. -/
theorem C37_set (xs : List Int) :
    (∀ y, (xs.foldl IntervalList.add [] : IntervalList).contains y = true ↔ y ∈ xs) ∧
    IntervalList.len (xs.foldl IntervalList.add []) = distinct xs := by
  obtain ⟨_, h2, h3⟩ := adds_inv xs
  exact ⟨fun y => (contains_iff _ y).trans (h2 y), h3⟩

/-- **C37, equality.** Two interval lists are equal exactly if the same integers were added, in whatever order and
however often. -/
theorem C37_equal (xs ys : List Int) :
    xs.foldl IntervalList.add [] = ys.foldl IntervalList.add [] ↔ ∀ z, z ∈ xs ↔ z ∈ ys := by
  obtain ⟨h1, h2, _⟩ := adds_inv xs
  obtain ⟨g1, g2, _⟩ := adds_inv ys
  constructor
  · intro h z
    rw [← h2 z, ← g2 z, h]
  · intro h
    exact canon_ext h1 g1 (fun y => by rw [h2 y, g2 y, h y])

/-- The second addition closes a gap, the next ones make a new interval and extend it at both ends. -/
example : [(1 : Int), 3, 2, 9, 8, 10, 2, -4].foldl IntervalList.add [] = [(-4, -4), (1, 3), (8, 10)] ∧
    distinct [(1 : Int), 3, 2, 9, 8, 10, 2, -4] = 7 := by decide

/-! ## The tracker -/

theorem distinct_split {α : Type} [DecidableEq α] (p : α → Bool) (s : List α) :
    distinct s = distinct (s.filter p) + distinct (s.filter (fun x => !p x)) := by
  induction s with
  | nil => rfl
  | cons x s ih =>
    simp only [distinct, List.filter_cons]
    cases hp : p x with
    | true =>
      simp only [Bool.not_true, Bool.false_eq_true, if_false, if_true, distinct, List.mem_filter, hp, and_true]
      split <;> omega
    | false =>
      simp only [Bool.not_false, Bool.false_eq_true, if_false, if_true, distinct, List.mem_filter, hp, and_true]
      split <;> omega

/-- The identifiers of a view. -/
def ofView (s : List (Int × Int)) (v : Int) : List (Int × Int) := s.filter (fun b => b.1 = v)

/-- The tracker agrees with a set of identifiers. -/
structure TrackInv (t : Tracker) (s : List (Int × Int)) : Prop where
  nodup : (Dict.keys t).Nodup
  canon : ∀ v l, Dict.get? t v = some l → Canon l
  elem : ∀ v p, Elem ((Dict.get? t v).getD []) p ↔ (v, p) ∈ s
  len : ∀ v, IntervalList.len ((Dict.get? t v).getD []) = distinct (ofView s v)

theorem sum_views (t : Tracker) (s : List (Int × Int)) (hn : (Dict.keys t).Nodup) (hs : ∀ b ∈ s, b.1 ∈ Dict.keys t)
    (hl : ∀ e ∈ t, IntervalList.len e.2 = distinct (ofView s e.1)) : Tracker.len t = distinct s := by
  induction t generalizing s with
  | nil =>
    cases s with
    | nil => rfl
    | cons b s => have := hs b (by simp); simp [Dict.keys] at this
  | cons e t ih =>
    obtain ⟨hne, hn'⟩ := List.nodup_cons.1 hn
    have h1 := hl e (by simp)
    have hrest : Tracker.len t = distinct (s.filter (fun b => !decide (b.1 = e.1))) := by
      refine ih _ hn' ?_ ?_
      · intro b hb
        obtain ⟨hb, hbe⟩ := List.mem_filter.1 hb
        have := hs b hb
        simp only [Dict.keys, List.map_cons, List.mem_cons] at this
        rcases this with this | this
        · simp [this] at hbe
        · exact this
      · intro x hx
        rw [hl x (by simp [hx])]
        congr 1
        unfold ofView
        rw [List.filter_filter]
        congr 1
        refine List.filter_congr fun b _ => ?_
        by_cases hb : b.1 = x.1
        · have : x.1 ≠ e.1 := by
            intro he; exact hne (he ▸ List.mem_map.2 ⟨x, hx, rfl⟩)
          simp [hb, this]
        · simp [hb]
    have hsplit := distinct_split (fun b : Int × Int => decide (b.1 = e.1)) s
    have : Tracker.len (e :: t) = IntervalList.len e.2 + Tracker.len t := by simp [Tracker.len]
    rw [this, h1, hrest, hsplit]
    unfold ofView
    omega

theorem TrackInv.total {t : Tracker} {s : List (Int × Int)} (h : TrackInv t s) : Tracker.len t = distinct s := by
  refine sum_views t s h.nodup ?_ ?_
  · intro b hb
    have := (h.elem b.1 b.2).2 hb
    cases hg : Dict.get? t b.1 with
    | none => rw [hg] at this; exact absurd this (elem_nil _)
    | some l => exact (Dict.mem_keys t b.1).2 ⟨l, hg⟩
  · intro e he
    have := h.len e.1
    rw [Dict.get?_of_mem h.nodup he] at this
    exact this

theorem Canon.getD {t : Tracker} (h : ∀ v l, Dict.get? t v = some l → Canon l) (v : Int) :
    Canon ((Dict.get? t v).getD []) := by
  cases hg : Dict.get? t v with
  | none => exact ⟨0, trivial⟩
  | some l => exact h v l hg

theorem TrackInv.add {t : Tracker} {s : List (Int × Int)} (h : TrackInv t s) (v p : Int) :
    TrackInv (t.add v p) ((v, p) :: s) := by
  have hc := Canon.getD h.canon v
  obtain ⟨a1, a2, a3, a4⟩ := add_spec hc p
  refine ⟨Dict.nodup_keys_set h.nodup _ _, ?_, ?_, ?_⟩
  · intro w l hw
    unfold Tracker.add at hw
    rw [Dict.get?_set] at hw
    split at hw
    · cases hw; exact a1
    · exact h.canon w l hw
  · intro w q
    unfold Tracker.add
    rw [Dict.get?_set]
    by_cases hv : v = w
    · subst hv
      rw [if_pos rfl, Option.getD_some, a2 q, h.elem]
      simp
    · rw [if_neg hv, h.elem]
      simp [Ne.symm hv]
  · intro w
    unfold Tracker.add
    rw [Dict.get?_set]
    by_cases hv : v = w
    · subst hv
      rw [if_pos rfl, Option.getD_some]
      have hm : (v, p) ∈ ofView s v ↔ (v, p) ∈ s := by simp [ofView]
      have hcons : ofView ((v, p) :: s) v = (v, p) :: ofView s v := by simp [ofView]
      rw [hcons]
      unfold distinct
      by_cases hp : (v, p) ∈ s
      · rw [if_pos (hm.2 hp), a4 ((h.elem v p).2 hp), h.len]
      · rw [if_neg (fun hx => hp (hm.1 hx)), a3 (fun hx => hp ((h.elem v p).1 hx)), h.len]; simp
    · rw [if_neg hv, h.len]
      have : ofView ((v, p) :: s) w = ofView s w := by simp [ofView, hv]
      rw [this]

theorem TrackInv.touch {t : Tracker} {s : List (Int × Int)} (h : TrackInv t s) (v : Int) : TrackInv (t.touch v) s := by
  unfold Tracker.touch
  cases hg : Dict.get? t v with
  | some l => exact h
  | none =>
    have hget : ∀ w, (Dict.get? (Dict.set t v ([] : IntervalList)) w).getD [] = (Dict.get? t w).getD [] := by
      intro w
      rw [Dict.get?_set]
      split
      · next hw => subst hw; rw [hg]; rfl
      · rfl
    refine ⟨Dict.nodup_keys_set h.nodup _ _, ?_, ?_, ?_⟩
    · intro w l hw
      rw [Dict.get?_set] at hw
      split at hw
      · cases hw; exact ⟨0, trivial⟩
      · exact h.canon w l hw
    · intro w q; rw [hget]; exact h.elem w q
    · intro w; rw [hget]; exact h.len w

theorem TrackInv.clear {t : Tracker} {s : List (Int × Int)} (h : TrackInv t s) (v : Int) :
    TrackInv (t.clearBelow v) (s.filter (fun b => ¬ b.1 < v)) := by
  have hget : ∀ w, Dict.get? (t.clearBelow v) w = if w < v then none else Dict.get? t w := by
    intro w
    have := Dict.get?_filter t (fun k => decide (¬ k < v)) w
    unfold Tracker.clearBelow
    rw [this]
    by_cases hw : w < v <;> simp [hw]
  refine ⟨Dict.nodup_keys_filter h.nodup _, ?_, ?_, ?_⟩
  · intro w l hw
    rw [hget] at hw
    split at hw
    · cases hw
    · exact h.canon w l hw
  · intro w q
    rw [hget]
    split
    · next hw => simp [elem_nil, hw]
    · next hw => rw [h.elem]; simp; intro _; omega
  · intro w
    rw [hget]
    have hf : ofView (s.filter (fun b => ¬ b.1 < v)) w = if w < v then [] else ofView s w := by
      unfold ofView
      rw [List.filter_filter]
      split
      · next hw =>
        refine List.filter_eq_nil_iff.2 fun b _ => ?_
        simp; intro hb; rw [hb]; exact hw
      · next hw =>
        refine List.filter_congr fun b _ => ?_
        by_cases hb : b.1 = w
        · simp [hb]; omega
        · simp [hb]
    rw [hf]
    split
    · rfl
    · exact h.len w

theorem trackInv (cs : List Call) : TrackInv (run cs) (holds cs) := by
  induction cs using snoc_induction with
  | nil => exact ⟨List.nodup_nil, by simp [run], by simp [run, holds, elem_nil], by intro v; rfl⟩
  | snoc cs c ih =>
    have e1 : run (cs ++ [c]) = ((run cs).call c).2 := by simp [run]
    rw [e1]
    cases c with
    | add v p =>
      have : holds (cs ++ [.add v p]) = (v, p) :: holds cs := by simp [holds]
      rw [this]; exact ih.add v p
    | lookup v p =>
      have : holds (cs ++ [.lookup v p]) = holds cs := by simp [holds]
      rw [this]; exact ih.touch v
    | clearBelow v =>
      have : holds (cs ++ [.clearBelow v]) = (holds cs).filter (fun b => ¬ b.1 < v) := by simp [holds]
      rw [this]; exact ih.clear v

/-- **C37, tracker.** After any calls a lookup answers whether the batch was added and not cleared since, and the
length is the number of such batches. Trackers which compare equal hold the same batches. -/
theorem C37_tracker (cs : List Call) :
    (∀ v p, ((run cs).lookup v p).1 = true ↔ (v, p) ∈ holds cs) ∧ (run cs).len = distinct (holds cs) ∧
    ∀ ds, (run cs).Same (run ds) → ∀ b, b ∈ holds cs ↔ b ∈ holds ds := by
  have h := trackInv cs
  refine ⟨fun v p => (contains_iff _ p).trans (h.elem v p), h.total, fun ds hs b => ?_⟩
  rw [← h.elem b.1 b.2, ← (trackInv ds).elem b.1 b.2, hs b.1]

/-- **C37 fails for trackers in one way.** A lookup in a view without batches leaves an empty entry, so that two
trackers which hold the same batches do not compare equal. -/
theorem C37_lookup_breaks_equality :
    holds [.add 0 1] = holds [.add 0 1, .lookup 1 1] ∧ ¬ (run [.add 0 1]).Same (run [.add 0 1, .lookup 1 1]) := by
  refine ⟨rfl, fun h => ?_⟩
  have := h 1
  simp [run, Tracker.call, Tracker.add, Tracker.lookup, Tracker.touch, Dict.set, Dict.get?] at this

/-- Without lookups, and if nothing was cleared, equality is exact. -/
theorem C37_tracker_equal (cs ds : List (Int × Int)) :
    (run (cs.map (fun b => .add b.1 b.2))).Same (run (ds.map (fun b => .add b.1 b.2))) ↔ ∀ b, b ∈ cs ↔ b ∈ ds := by
  have hh : ∀ cs : List (Int × Int), (∀ b, b ∈ holds (cs.map (fun b => Call.add b.1 b.2)) ↔ b ∈ cs) ∧
      ∀ v l, Dict.get? (run (cs.map (fun b => Call.add b.1 b.2))) v = some l → ∃ p, Elem l p := by
    intro cs
    induction cs using snoc_induction with
    | nil => exact ⟨by simp [holds], by simp [run]⟩
    | snoc cs c ih =>
      have h := trackInv (cs.map (fun b => Call.add b.1 b.2))
      have e1 : holds ((cs ++ [c]).map (fun b => Call.add b.1 b.2)) = c :: holds (cs.map (fun b => Call.add b.1 b.2)) := by
        simp [holds]
      have e2 : run ((cs ++ [c]).map (fun b => Call.add b.1 b.2)) =
          (run (cs.map (fun b => Call.add b.1 b.2))).add c.1 c.2 := by
        simp [run, Tracker.call]
      refine ⟨fun b => ?_, fun v l hl => ?_⟩
      · rw [e1, List.mem_cons, ih.1]; simp [or_comm]
      · rw [e2] at hl
        unfold Tracker.add at hl
        rw [Dict.get?_set] at hl
        split at hl
        · cases hl
          exact ⟨c.2, ((add_spec (Canon.getD h.canon c.1) c.2).2.1 c.2).2 (Or.inl rfl)⟩
        · exact ih.2 v l hl
  constructor
  · intro h b
    rw [← (hh cs).1, ← (hh ds).1]
    exact (C37_tracker _).2.2 _ h b
  · intro h v
    have h1 := trackInv (cs.map (fun b => Call.add b.1 b.2))
    have h2 := trackInv (ds.map (fun b => Call.add b.1 b.2))
    have he : ∀ p, Elem ((Dict.get? (run (cs.map (fun b => Call.add b.1 b.2))) v).getD []) p ↔
        Elem ((Dict.get? (run (ds.map (fun b => Call.add b.1 b.2))) v).getD []) p := by
      intro p
      rw [h1.elem, h2.elem, (hh cs).1, (hh ds).1]; exact h _
    have hx := canon_ext (Canon.getD h1.canon v) (Canon.getD h2.canon v) he
    cases g1 : Dict.get? (run (cs.map (fun b => Call.add b.1 b.2))) v with
    | none =>
      cases g2 : Dict.get? (run (ds.map (fun b => Call.add b.1 b.2))) v with
      | none => rfl
      | some m =>
        obtain ⟨p, hp⟩ := (hh ds).2 v m g2
        rw [g1, g2] at hx
        simp only [Option.getD_none, Option.getD_some] at hx
        rw [← hx] at hp; exact absurd hp (elem_nil p)
    | some l =>
      cases g2 : Dict.get? (run (ds.map (fun b => Call.add b.1 b.2))) v with
      | none =>
        obtain ⟨p, hp⟩ := (hh cs).2 v l g1
        rw [g1, g2] at hx
        simp only [Option.getD_none, Option.getD_some] at hx
        rw [hx] at hp; exact absurd hp (elem_nil p)
      | some m =>
        rw [g1, g2] at hx
        simp only [Option.getD_some] at hx
        rw [hx]

example : (run [.add 0 1, .add 1 1, .add 0 2, .lookup 3 7, .add 1 4, .clearBelow 1]).lookup 1 4 =
      (true, [(1, [(1, 1), (4, 4)]), (3, [])]) ∧
    holds [.add 0 1, .add 1 1, .add 0 2, .lookup 3 7, .add 1 4, .clearBelow 1] = [(1, 4), (1, 1)] := by decide

end Verif.Props
