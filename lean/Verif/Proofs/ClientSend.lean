import Verif.Spec.ClientSend
import Verif.Proofs.Count
/-!
# Proofs about messages to clients
-/
namespace Verif.ClientSend
open Verif.Spec.ClientSend

abbrev Pend := Dict Id (List Entry)

/-- The messages of a client. -/
def view (p : Pend) (i : Id) : List Entry := (p.get? i).getD []

structure Good (p : Pend) : Prop where
  nodup : p.keys.Nodup
  ne : ∀ i l, p.get? i = some l → l ≠ []

theorem view_set (p : Pend) (i : Id) (l : List Entry) (j : Id) : view (p.set i l) j = if i = j then l else view p j := by
  unfold view
  rw [Dict.get?_set]
  split <;> rfl

theorem view_erase (p : Pend) (i j : Id) : view (p.erase i) j = if i = j then [] else view p j := by
  unfold view
  rw [Dict.get?_erase]
  split <;> rfl

theorem Good.set {p : Pend} (h : Good p) (i : Id) {l : List Entry} (hl : l ≠ []) : Good (p.set i l) := by
  refine ⟨Dict.nodup_keys_set h.nodup i l, fun j l' hj => ?_⟩
  rw [Dict.get?_set] at hj
  split at hj
  · cases hj; exact hl
  · exact h.ne j l' hj

theorem Good.erase {p : Pend} (h : Good p) (i : Id) : Good (p.erase i) := by
  refine ⟨Dict.nodup_keys_erase h.nodup i, fun j l' hj => ?_⟩
  rw [Dict.get?_erase] at hj
  split at hj
  · cases hj
  · exact h.ne j l' hj

theorem length_erase_le (p : Pend) (i : Id) : (p.erase i).length ≤ p.length := List.length_filter_le _ _

theorem length_set_some {p : Pend} {i : Id} {l l' : List Entry} (h : p.get? i = some l') : (p.set i l).length = p.length := by
  induction p with
  | nil => cases h
  | cons a p ih =>
    unfold Dict.set
    rw [Dict.get?_cons] at h
    split
    · rfl
    · next hne => rw [if_neg hne] at h; simp [ih h]

theorem length_set_none {p : Pend} {i : Id} {l : List Entry} (h : p.get? i = none) : p.set i l = p ++ [(i, l)] := by
  induction p with
  | nil => rfl
  | cons a p ih =>
    unfold Dict.set
    rw [Dict.get?_cons] at h
    split
    · next he => rw [if_pos he] at h; cases h
    · next hne => rw [if_neg hne] at h; rw [ih h]; rfl

/-- Only keys that were there. -/
def Sub (p' p : Pend) : Prop := p'.length ≤ p.length ∧ ∀ j, (p'.get? j).isSome → (p.get? j).isSome

theorem removeMessage_spec {p : Pend} (h : Good p) {i : Id} {e : Entry} (he : e ∈ view p i) :
    ∃ p', removeMessage p i e = some p' ∧ Good p' ∧ view p' i = (view p i).erase e ∧
      (∀ j, j ≠ i → p'.get? j = p.get? j) ∧ p'.length ≤ p.length := by
  unfold view at he
  cases hg : p.get? i with
  | none => rw [hg] at he; cases he
  | some l =>
    rw [hg] at he
    have hv : view p i = l := by simp [view, hg]
    have he' : e ∈ l := he
    unfold removeMessage
    simp only [hg, if_pos he']
    by_cases hn : l.erase e = []
    · rw [if_pos hn]
      refine ⟨_, rfl, h.erase i, ?_, fun j hj => ?_, length_erase_le p i⟩
      · rw [view_erase, if_pos rfl, hv, hn]
      · rw [Dict.get?_erase, if_neg (Ne.symm hj)]
    · rw [if_neg hn]
      refine ⟨_, rfl, h.set i hn, ?_, fun j hj => ?_, Nat.le_of_eq (length_set_some hg)⟩
      · rw [view_set, if_pos rfl, hv]
      · rw [Dict.get?_set, if_neg (Ne.symm hj)]

/-- `dropEach` on the messages of the client alone. -/
def purge (fate : Nat → Option Fate) (due : Entry → Bool) : Nat → List Entry → List Entry → List Entry × List (Fate × Msg)
  | _, [], l => (l, [])
  | n, e :: es, l =>
    if due e then
      match fate n with
      | none => purge fate due (n + 1) es l
      | some f => ((purge fate due (n + 1) es (l.erase e)).1, (f, e.2) :: (purge fate due (n + 1) es (l.erase e)).2)
    else purge fate due n es l

theorem dropEach_spec (fate : Nat → Option Fate) (i : Id) (due : Entry → Bool) :
    ∀ (es : List Entry) (n : Nat) (s : St), Good s.pending → (∀ e, es.count e ≤ (view s.pending i).count e) →
    ∃ s', dropEach fate i due n es s = some s' ∧ Good s'.pending ∧
      view s'.pending i = (purge fate due n es (view s.pending i)).1 ∧
      s'.log = s.log ++ (purge fate due n es (view s.pending i)).2.map (fun x => (x.1, i, x.2)) ∧
      (∀ j, j ≠ i → s'.pending.get? j = s.pending.get? j) ∧ s'.pending.length ≤ s.pending.length := by
  intro es
  induction es with
  | nil => intro n s hs _; exact ⟨s, rfl, hs, rfl, by simp [purge], fun _ _ => rfl, Nat.le_refl _⟩
  | cons e es ih =>
    intro n s hs hc
    have hc1 : ∀ x, es.count x ≤ (view s.pending i).count x := fun x =>
      Nat.le_trans (by rw [List.count_cons]; exact Nat.le_add_right _ _) (hc x)
    unfold dropEach purge
    by_cases hd : due e = true
    · rw [if_pos hd, if_pos hd]
      cases hf : fate n with
      | none => exact ih (n + 1) s hs hc1
      | some f =>
        have hmem : e ∈ view s.pending i := by
          have := hc e
          rw [List.count_cons_self] at this
          exact List.count_pos_iff.1 (by omega)
        obtain ⟨p, h1, h2, h3, h4, h5⟩ := removeMessage_spec hs hmem
        simp only [h1]
        obtain ⟨s', g1, g2, g3, g4, g5, g6⟩ := ih (n + 1) ⟨p, s.log ++ [(f, i, e.2)]⟩ h2 (by
          intro x
          simp only
          rw [h3, List.count_erase]
          have := hc x
          rw [List.count_cons] at this
          by_cases hx : e = x
          · subst hx; simp at this ⊢; omega
          · simp [hx] at this ⊢; omega)
        refine ⟨s', g1, g2, ?_, ?_, fun j hj => ?_, Nat.le_trans g6 h5⟩
        · rw [g3, h3]
        · rw [g4]; simp only [h3]; simp
        · rw [g5 j hj]; exact h4 j hj
    · rw [if_neg hd, if_neg hd]
      exact ih n s hs hc1

/-- Nothing is lost or added. -/
theorem purge_perm (fate : Nat → Option Fate) (due : Entry → Bool) :
    ∀ (es : List Entry) (n : Nat) (l : List Entry), (∀ e, es.count e ≤ l.count e) →
    ((purge fate due n es l).2.map Prod.snd ++ (purge fate due n es l).1.map Prod.snd).Perm (l.map Prod.snd) ∧
      (purge fate due n es l).1.Sublist l := by
  intro es
  induction es with
  | nil => intro n l _; exact ⟨List.Perm.refl _, List.Sublist.refl _⟩
  | cons e es ih =>
    intro n l hc
    have hc1 : ∀ x, es.count x ≤ l.count x := fun x =>
      Nat.le_trans (by rw [List.count_cons]; exact Nat.le_add_right _ _) (hc x)
    unfold purge
    split
    · cases hf : fate n with
      | none => exact ih (n + 1) l hc1
      | some f =>
        have hmem : e ∈ l := by
          have := hc e
          rw [List.count_cons_self] at this
          exact List.count_pos_iff.1 (by omega)
        have hc2 : ∀ x, es.count x ≤ (l.erase e).count x := by
          intro x
          rw [List.count_erase]
          have := hc x
          rw [List.count_cons] at this
          by_cases hx : e = x
          · subst hx; simp at this ⊢; omega
          · simp [hx] at this ⊢; omega
        obtain ⟨h1, h2⟩ := ih (n + 1) (l.erase e) hc2
        refine ⟨?_, h2.trans List.erase_sublist⟩
        have h3 : (l.map Prod.snd).Perm (e.2 :: (l.erase e).map Prod.snd) := (List.perm_cons_erase hmem).map Prod.snd
        exact (h1.cons e.2).trans h3.symm
    · exact ih n l hc1

/-- Nothing happens if nothing is due. -/
theorem purge_none_due (fate : Nat → Option Fate) {due : Entry → Bool} :
    ∀ (es : List Entry) (n : Nat) (l : List Entry), (∀ e ∈ es, due e = false) → purge fate due n es l = (l, []) := by
  intro es
  induction es with
  | nil => intro n l _; rfl
  | cons e es ih =>
    intro n l h
    unfold purge
    rw [h e List.mem_cons_self]
    exact ih n l (fun x hx => h x (List.mem_cons_of_mem _ hx))

theorem purge_fates {fate : Nat → Option Fate} {due : Entry → Bool} {P : Fate → Prop} :
    ∀ (es : List Entry) (n : Nat) (l : List Entry), (∀ k f, n ≤ k → fate k = some f → P f) →
    ∀ x ∈ (purge fate due n es l).2, P x.1 := by
  intro es
  induction es with
  | nil => intro n l _ x hx; cases hx
  | cons e es ih =>
    intro n l h
    unfold purge
    split
    · cases hf : fate n with
      | none => exact ih (n + 1) l (fun k f hk => h k f (by omega))
      | some f =>
        intro x hx
        rcases List.mem_cons.1 hx with rfl | hx
        · exact h n f (Nat.le_refl _) hf
        · exact ih (n + 1) _ (fun k f hk => h k f (by omega)) x hx
    · exact ih n l h

/-- The messages that were taken. -/
def taken (fs : List (Fate × Msg)) : List Msg := fs.filterMap (fun x => if x.1 = .sent then some x.2 else none)

theorem taken_nil_of {fs : List (Fate × Msg)} (h : ∀ x ∈ fs, x.1 ≠ .sent) : taken fs = [] := by
  unfold taken
  rw [List.filterMap_eq_nil_iff]
  intro x hx
  rw [if_neg (h x hx)]

theorem taken_all {fs : List (Fate × Msg)} (h : ∀ x ∈ fs, x.1 = .sent) : taken fs = fs.map Prod.snd := by
  induction fs with
  | nil => rfl
  | cons f fs ih =>
    have := ih (fun x hx => h x (List.mem_cons_of_mem _ hx))
    simp [taken, h f List.mem_cons_self] at this ⊢
    exact this

/-- The messages taken come first. -/
theorem purge_order {fate : Nat → Option Fate} {due : Entry → Bool}
    (hs : ∀ n k, n ≤ k → fate n = none → fate k ≠ some .sent) :
    ∀ (es : List Entry) (n : Nat), es.Pairwise (fun a b => due a = false → due b = false) →
    (taken (purge fate due n es es).2 ++ (purge fate due n es es).1.map Prod.snd).Sublist (es.map Prod.snd) := by
  intro es
  induction es with
  | nil => intro n _; exact List.Sublist.refl _
  | cons e es ih =>
    intro n hp
    have hp' := List.pairwise_cons.1 hp
    unfold purge
    split
    · next hd =>
      cases hf : fate n with
      | none =>
        have h0 := taken_nil_of (fs := (purge fate due (n + 1) es (e :: es)).2)
          (purge_fates (P := fun f => f ≠ .sent) es (n + 1) (e :: es)
            (fun k f hk hkf h => hs n k (by omega) hf (by rw [hkf, h])))
        have h1 := (purge_perm fate due es (n + 1) (e :: es) (fun x => by
          rw [List.count_cons]; exact Nat.le_add_right _ _)).2
        show (taken (purge fate due (n + 1) es (e :: es)).2 ++ _).Sublist _
        rw [h0]
        exact h1.map _
      | some f =>
        simp only [List.erase_cons_head]
        have hih := ih (n + 1) hp'.2
        by_cases hf2 : f = .sent
        · subst hf2
          exact hih.cons_cons e.2
        · have : taken ((f, e.2) :: (purge fate due (n + 1) es es).2) = taken (purge fate due (n + 1) es es).2 := by
            simp [taken, hf2]
          rw [this]
          exact hih.trans (List.sublist_cons_self _ _)
    · next hd =>
      have hn : ∀ x ∈ es, due x = false := fun x hx => hp'.1 x hx (by simpa using hd)
      rw [purge_none_due fate es n _ hn]
      exact List.Sublist.refl _

/-- Everything is taken. -/
theorem purge_flush {fate : Nat → Option Fate} {due : Entry → Bool} (hd : ∀ e, due e = true) {f : Fate}
    (hs : ∀ n, fate n = some f) :
    ∀ (es : List Entry) (n : Nat), purge fate due n es es = ([], es.map (fun e => (f, e.2))) := by
  intro es
  induction es with
  | nil => intro n; rfl
  | cons e es ih =>
    intro n
    unfold purge
    rw [if_pos (hd e), hs n]
    simp only [List.erase_cons_head]
    rw [ih (n + 1)]; rfl

/-! ## The messages of a client over the calls -/

/-- What left the list of a client in a piece of the log. -/
def fatesOf (log : List (Fate × Id × Msg)) (i : Id) : List (Fate × Msg) :=
  log.filterMap (fun x => if x.2.1 = i then some (x.1, x.2.2) else none)

theorem fatesOf_append (a b : List (Fate × Id × Msg)) (i : Id) : fatesOf (a ++ b) i = fatesOf a i ++ fatesOf b i :=
  List.filterMap_append

theorem fatesOf_map (i j : Id) (l : List (Fate × Msg)) :
    fatesOf (l.map (fun x => (x.1, i, x.2))) j = if i = j then l else [] := by
  unfold fatesOf
  rw [List.filterMap_map]
  by_cases h : i = j
  · subst h
    rw [if_pos rfl]
    have : ((fun x : Fate × Id × Msg => if x.2.1 = i then some (x.1, x.2.2) else none) ∘ fun x : Fate × Msg => (x.1, i, x.2)) =
        some := by funext x; simp
    rw [this, List.filterMap_some]
  · rw [if_neg h, List.filterMap_eq_nil_iff]
    intro x _
    simp [h]

theorem fatesOf_evicted (i j : Id) (l : List Entry) :
    fatesOf (l.map (fun e => (Fate.evicted, i, e.2))) j = if i = j then l.map (fun e => (.evicted, e.2)) else [] := by
  have := fatesOf_map i j (l.map (fun e => (Fate.evicted, e.2)))
  rw [List.map_map] at this
  exact this

/-- What may happen to the messages `l` of a client in a piece of a call: those in `fs` leave, `l'` stay. -/
structure Moves (l : List Entry) (fs : List (Fate × Msg)) (l' : List Entry) : Prop where
  perm : (fs.map Prod.snd ++ l'.map Prod.snd).Perm (l.map Prod.snd)
  sub : l'.Sublist l

/-- The same, in order. -/
def InOrder (l : List Entry) (fs : List (Fate × Msg)) (l' : List Entry) : Prop :=
  (taken fs ++ l'.map Prod.snd).Sublist (l.map Prod.snd)

theorem Moves.refl (l : List Entry) : Moves l [] l := ⟨List.Perm.refl _, List.Sublist.refl _⟩

theorem InOrder.refl (l : List Entry) : InOrder l [] l := List.Sublist.refl _

theorem Moves.trans {a b c : List Entry} {x y : List (Fate × Msg)} (h1 : Moves a x b) (h2 : Moves b y c) :
    Moves a (x ++ y) c := by
  refine ⟨?_, h2.sub.trans h1.sub⟩
  rw [List.map_append, List.append_assoc]
  exact (h2.perm.append_left _).trans h1.perm

theorem taken_append (x y : List (Fate × Msg)) : taken (x ++ y) = taken x ++ taken y := List.filterMap_append

theorem InOrder.trans {a b c : List Entry} {x y : List (Fate × Msg)} (h1 : InOrder a x b) (h2 : InOrder b y c) :
    InOrder a (x ++ y) c := by
  unfold InOrder at *
  rw [taken_append, List.append_assoc]
  exact ((List.Sublist.refl _).append h2).trans h1

/-- From state to state, for every client. -/
structure Step (s s' : St) (fs : Id → List (Fate × Msg)) : Prop where
  good : Good s'.pending
  log : ∀ i, fatesOf s'.log i = fatesOf s.log i ++ fs i
  moves : ∀ i, Moves (view s.pending i) (fs i) (view s'.pending i)
  len : s'.pending.length ≤ s.pending.length

theorem count_le_self (l : List Entry) : ∀ e, l.count e ≤ l.count e := fun _ => Nat.le_refl _

theorem dropEach_step (fate : Nat → Option Fate) (i : Id) (due : Entry → Bool) {s : St} (hs : Good s.pending) :
    ∃ s', dropEach fate i due 0 (view s.pending i) s = some s' ∧
      Step s s' (fun j => if i = j then (purge fate due 0 (view s.pending i) (view s.pending i)).2 else []) ∧
      view s'.pending i = (purge fate due 0 (view s.pending i) (view s.pending i)).1 ∧
      (∀ j, j ≠ i → s'.pending.get? j = s.pending.get? j) := by
  obtain ⟨s', h1, h2, h3, h4, h5, h6⟩ := dropEach_spec fate i due (view s.pending i) 0 s hs (count_le_self _)
  refine ⟨s', h1, ⟨h2, fun j => ?_, fun j => ?_, h6⟩, h3, h5⟩
  · rw [h4, fatesOf_append, fatesOf_map]
  · by_cases hj : i = j
    · subst hj
      rw [if_pos rfl, h3]
      have := purge_perm fate due (view s.pending i) 0 (view s.pending i) (count_le_self _)
      exact ⟨this.1, this.2⟩
    · rw [if_neg hj]
      have : view s'.pending j = view s.pending j := by unfold view; rw [h5 j (Ne.symm hj)]
      rw [this]
      exact Moves.refl _

theorem eachClient_spec {f : Id → List Entry → St → Option St} {Q : Id → List Entry → List (Fate × Msg) → List Entry → Prop}
    (hf : ∀ i s, Good s.pending → ∃ s' fs, f i (view s.pending i) s = some s' ∧
      Step s s' (fun j => if i = j then fs else []) ∧ Q i (view s.pending i) fs (view s'.pending i) ∧
      (∀ j, j ≠ i → s'.pending.get? j = s.pending.get? j)) :
    ∀ (is : List Id) (s : St), Good s.pending → is.Nodup → (∀ i ∈ is, (s.pending.get? i).isSome) →
    ∃ s' fs, eachClient f is s = some s' ∧ Step s s' fs ∧ (∀ i ∈ is, Q i (view s.pending i) (fs i) (view s'.pending i)) ∧
      (∀ i, i ∉ is → fs i = [] ∧ s'.pending.get? i = s.pending.get? i) := by
  intro is
  induction is with
  | nil =>
    intro s hs _ _
    exact ⟨s, fun _ => [], rfl, ⟨hs, fun _ => (by simp), fun _ => Moves.refl _, Nat.le_refl _⟩, nofun,
      fun _ _ => ⟨rfl, rfl⟩⟩
  | cons i is ih =>
    intro s hs hn hm
    have hn' := List.nodup_cons.1 hn
    obtain ⟨l, hl⟩ := Option.isSome_iff_exists.1 (hm i List.mem_cons_self)
    have hv : view s.pending i = l := by simp [view, hl]
    obtain ⟨s1, fs1, a1, a2, a3, a4⟩ := hf i s hs
    obtain ⟨s2, fs2, b1, b2, b3, b4⟩ := ih s1 a2.good hn'.2 (fun j hj => by
      rw [a4 j (fun h => hn'.1 (h ▸ hj))]; exact hm j (List.mem_cons_of_mem _ hj))
    have hother : ∀ j, j ≠ i → view s1.pending j = view s.pending j := fun j hj => by unfold view; rw [a4 j hj]
    refine ⟨s2, fun j => (if i = j then fs1 else []) ++ fs2 j, ?_, ⟨b2.good, fun j => ?_, fun j => ?_,
      Nat.le_trans b2.len a2.len⟩, fun j hj => ?_, fun j hj => ?_⟩
    · unfold eachClient
      rw [hv] at a1
      simp only [hl, a1]
      exact b1
    · rw [b2.log j, a2.log j, List.append_assoc]
    · exact (a2.moves j).trans (b2.moves j)
    · rcases List.mem_cons.1 hj with rfl | hj
      · obtain ⟨e1, e2⟩ := b4 j hn'.1
        have e3 : view s2.pending j = view s1.pending j := by unfold view; rw [e2]
        simp only [if_true, e1, e3, List.append_nil]
        exact a3
      · have hne : j ≠ i := fun h => hn'.1 (h ▸ hj)
        simp only [if_neg (Ne.symm hne), List.nil_append]
        rw [← hother j hne]
        exact b3 j hj
    · have hne : j ≠ i := fun h => hj (h ▸ List.mem_cons_self)
      obtain ⟨e1, e2⟩ := b4 j (fun h => hj (List.mem_cons_of_mem _ h))
      simp only [if_neg (Ne.symm hne), e1, e2]
      exact ⟨rfl, a4 j hne⟩

theorem dropAll_spec (fate : Id → Nat → Option Fate) (due : Entry → Bool) {s : St} (hs : Good s.pending) :
    ∃ s' fs, eachClient (fun i l s => dropEach (fate i) i due 0 l s) s.pending.keys s = some s' ∧ Step s s' fs ∧
      ∀ i, (view s'.pending i, fs i) = purge (fate i) due 0 (view s.pending i) (view s.pending i) := by
  obtain ⟨s', fs, h1, h2, h3, h4⟩ := eachClient_spec
    (f := fun i l s => dropEach (fate i) i due 0 l s)
    (Q := fun i l fs l' => (l', fs) = purge (fate i) due 0 l l)
    (by
      intro i s hs
      obtain ⟨s', a1, a2, a3, a4⟩ := dropEach_step (fate i) i due hs
      exact ⟨s', _, a1, a2, by rw [a3], a4⟩)
    s.pending.keys s hs hs.nodup (fun i hi => by
      obtain ⟨v, hv⟩ := (Dict.mem_keys _ _).1 hi
      rw [hv]; rfl)
  refine ⟨s', fs, h1, h2, fun i => ?_⟩
  by_cases hi : i ∈ s.pending.keys
  · exact h3 i hi
  · obtain ⟨e1, e2⟩ := h4 i hi
    have hn : s.pending.get? i = none := by
      cases h : s.pending.get? i with
      | none => rfl
      | some v => exact absurd ((Dict.mem_keys _ _).2 ⟨v, h⟩) hi
    have v1 : view s.pending i = [] := by simp [view, hn]
    have v2 : view s'.pending i = [] := by simp [view, e2, hn]
    rw [e1, v1, v2]; rfl

/-! ## Sending -/

theorem limitClients_spec {c : Config} (hc : 1 ≤ c.clients) {p : Pend} (hp : Good p) (hlen : p.length ≤ c.clients) (i : Id)
    (e : Entry) (log : List (Fate × Id × Msg)) :
    ∃ fs, Step ⟨p.set i (view p i ++ [e]), log⟩ (limitClients c ⟨p.set i (view p i ++ [e]), log⟩) fs ∧
      (limitClients c ⟨p.set i (view p i ++ [e]), log⟩).pending.get? i = some (view p i ++ [e]) ∧
      (limitClients c ⟨p.set i (view p i ++ [e]), log⟩).pending.length ≤ c.clients ∧
      (∀ j, (fs j = [] ∧ (j ≠ i → view (limitClients c ⟨p.set i (view p i ++ [e]), log⟩).pending j = view p j)) ∨
        (j ≠ i ∧ p.get? i = none ∧ p.length = c.clients ∧ (∃ l, p.head? = some (j, l)) ∧
          fs j = (view p j).map (fun e => (Fate.evicted, e.2)) ∧
          view (limitClients c ⟨p.set i (view p i ++ [e]), log⟩).pending j = [])) := by
  have hg : Good (p.set i (view p i ++ [e])) := hp.set i (by simp)
  unfold limitClients
  by_cases hl : c.clients < (p.set i (view p i ++ [e])).length
  · simp only [if_pos hl]
    have hnone : p.get? i = none := by
      cases h : p.get? i with
      | none => rfl
      | some l => rw [length_set_some h] at hl; omega
    rw [length_set_none hnone] at hl hg ⊢
    cases p with
    | nil => simp at hl; omega
    | cons a p =>
      obtain ⟨j, l⟩ := a
      generalize view ((j, l) :: p) i ++ [e] = x at *
      have hkeys : (j :: (p ++ [(i, x)]).map Prod.fst).Nodup := hg.nodup
      have hji : j ≠ i := by
        intro h
        rw [Dict.get?_cons, if_pos h] at hnone; cases hnone
      have hjn : Dict.get? (p ++ [(i, x)]) j = none := by
        cases h : Dict.get? (p ++ [(i, x)]) j with
        | none => rfl
        | some v => exact absurd ((Dict.mem_keys _ _).2 ⟨v, h⟩) (List.nodup_cons.1 hkeys).1
      have hvj : view ((j, l) :: p) j = l := by simp [view, Dict.get?_cons]
      have hset : ((j, l) :: p) ++ [(i, x)] =
          Dict.set ((j, l) :: p) i (x) := (length_set_none hnone).symm
      have hrest : ∀ k, k ≠ j → Dict.get? (p ++ [(i, x)]) k =
          Dict.get? (((j, l) :: p) ++ [(i, x)]) k := by
        intro k hk
        rw [List.cons_append, Dict.get?_cons, if_neg (Ne.symm hk)]
      refine ⟨fun k => if j = k then l.map (fun e => (Fate.evicted, e.2)) else [], ⟨⟨(List.nodup_cons.1 hkeys).2, ?_⟩,
        ?_, ?_, ?_⟩, ?_, ?_, ?_⟩
      · intro k l' hk
        by_cases hkj : k = j
        · subst hkj; exact absurd (hk.symm.trans hjn) nofun
        · have hk : Dict.get? (p ++ [(i, x)]) k = some l' := hk
          rw [hrest k hkj] at hk
          exact hg.ne k l' hk
      · intro k
        simp only [List.cons_append]
        rw [fatesOf_append, fatesOf_evicted]
      · intro k
        simp only [List.cons_append]
        by_cases hk : j = k
        · subst hk
          rw [if_pos rfl]
          have v1 : view (p ++ [(i, x)]) j = [] := by simp [view, hjn]
          have v2 : view ((j, l) :: (p ++ [(i, x)])) j = l := by simp [view, Dict.get?_cons]
          rw [v1, v2]
          refine ⟨?_, List.nil_sublist _⟩
          rw [List.map_map, List.map_nil, List.append_nil]
          exact List.Perm.refl _
        · rw [if_neg hk]
          have : view (p ++ [(i, x)]) k =
              view ((j, l) :: (p ++ [(i, x)])) k := by
            unfold view; rw [hrest k (Ne.symm hk)]; rfl
          rw [this]
          exact Moves.refl _
      · simp
      · simp only [List.cons_append]
        rw [hrest i (Ne.symm hji), hset, Dict.get?_set, if_pos rfl]
      · simp only [List.cons_append]
        simp only [List.length_cons, List.length_append, List.length_nil] at hlen ⊢
        omega
      · intro k
        by_cases hk : j = k
        · subst hk
          right
          refine ⟨hji, hnone, ?_, ⟨l, rfl⟩, ?_, ?_⟩
          · simp only [List.cons_append, List.length_cons, List.length_append, List.length_nil] at hl hlen ⊢
            omega
          · rw [hvj]; exact if_pos rfl
          · simp only [List.cons_append]
            simp [view, hjn]
        · left
          refine ⟨if_neg hk, fun hki => ?_⟩
          simp only [List.cons_append]
          unfold view
          rw [hrest k (Ne.symm hk), hset, Dict.get?_set, if_neg (Ne.symm hki)]
  · simp only [if_neg hl]
    refine ⟨fun _ => [], ⟨hg, fun _ => by simp, fun _ => Moves.refl _, Nat.le_refl _⟩, ?_, by omega, fun j => ?_⟩
    · rw [Dict.get?_set, if_pos rfl]
    · left
      refine ⟨rfl, fun hj => ?_⟩
      rw [view_set, if_neg (Ne.symm hj)]

theorem limitMessages_spec {c : Config} (hm : 1 ≤ c.messages) {i : Id} {l : List Entry} {s : St} (hs : Good s.pending)
    (hl : s.pending.get? i = some l) (hlen : l.length ≤ c.messages + 1) :
    ∃ fs, Step s (limitMessages c i l s).1 (fun j => if i = j then fs else []) ∧
      (limitMessages c i l s).2 = view (limitMessages c i l s).1.pending i ∧
      (∀ j, j ≠ i → (limitMessages c i l s).1.pending.get? j = s.pending.get? j) ∧
      (view (limitMessages c i l s).1.pending i).length ≤ c.messages ∧
      ((l.length ≤ c.messages ∧ fs = [] ∧ view (limitMessages c i l s).1.pending i = l) ∨
        (l.length = c.messages + 1 ∧ fs = (l.take 1).map (fun e => (Fate.evicted, e.2)) ∧
          view (limitMessages c i l s).1.pending i = l.tail)) := by
  have hv : view s.pending i = l := by simp [view, hl]
  unfold limitMessages
  by_cases h : c.messages < l.length
  · simp only [if_pos h]
    have hne : l.tail ≠ [] := by
      intro h0
      have := congrArg List.length h0
      simp at this
      omega
    have hv' : view (s.pending.set i l.tail) i = l.tail := by rw [view_set, if_pos rfl]
    refine ⟨(l.take 1).map (fun e => (Fate.evicted, e.2)), ⟨hs.set i hne, fun j => ?_, fun j => ?_,
      Nat.le_of_eq (length_set_some hl)⟩, hv'.symm, fun j hj => ?_, ?_, .inr ⟨by omega, rfl, hv'⟩⟩
    · rw [fatesOf_append, fatesOf_evicted]
    · by_cases hj : i = j
      · subst hj
        rw [if_pos rfl, hv', hv]
        refine ⟨?_, List.tail_sublist _⟩
        rw [List.map_map]
        cases l with
        | nil => exact List.Perm.refl _
        | cons a l => exact List.Perm.refl _
      · rw [if_neg hj, view_set, if_neg hj]
        exact Moves.refl _
    · rw [Dict.get?_set, if_neg (Ne.symm hj)]
    · rw [hv', List.length_tail]; omega
  · simp only [if_neg h]
    refine ⟨[], ⟨hs, fun j => ?_, fun j => ?_, Nat.le_refl _⟩, hv.symm, by simp, by rw [hv]; omega, .inl ⟨by omega, rfl, hv⟩⟩
    · split <;> simp
    · split <;> exact Moves.refl _

structure Inv (c : Config) (s : St) : Prop where
  good : Good s.pending
  clients : s.pending.length ≤ c.clients
  messages : ∀ i, (view s.pending i).length ≤ c.messages

theorem Inv.init (c : Config) : Inv c {} := by
  refine ⟨⟨List.nodup_nil, ?_⟩, Nat.zero_le _, ?_⟩
  · intro i l h; cases h
  · intro i; exact Nat.zero_le _

/-- What the messages of the client come to when a new one is sent: `l` are those left after the limit, `gone` those the
limit has cost. -/
def Limited (c : Config) (l0 l gone : List Entry) : Prop :=
  (l0.length ≤ c.messages ∧ l = l0 ∧ gone = []) ∨ (l0.length = c.messages + 1 ∧ l = l0.tail ∧ gone = l0.take 1)

theorem transmit_spec {c : Config} (hc : 1 ≤ c.clients) (hm : 1 ≤ c.messages) {s : St} (hs : Inv c s) (now : Nat) (i : Id)
    (m : Msg) (out : Nat → Outcome) :
    ∃ (s' : St) (fs : Id → List (Fate × Msg)) (l gone : List Entry), transmit c now i m out s = some (s', decide (out (l.length - 1) = .sent)) ∧ Inv c s' ∧ l ≠ [] ∧
      (∀ j, fatesOf s'.log j = fatesOf s.log j ++ fs j) ∧
      Limited c (view s.pending i ++ [(now, m)]) l gone ∧
      fs i = gone.map (fun e => (Fate.evicted, e.2)) ++ (purge (fun n => (out n).fate) (fun _ => true) 0 l l).2 ∧
      view s'.pending i = (purge (fun n => (out n).fate) (fun _ => true) 0 l l).1 ∧
      (∀ j, j ≠ i → (fs j = [] ∧ view s'.pending j = view s.pending j) ∨
        (s.pending.get? i = none ∧ s.pending.length = c.clients ∧ (∃ l, s.pending.head? = some (j, l)) ∧
          fs j = (view s.pending j).map (fun e => (Fate.evicted, e.2)) ∧ view s'.pending j = [])) := by
  obtain ⟨fs1, a1, a2, a3, a4⟩ := limitClients_spec hc hs.good hs.clients i (now, m) s.log
  have hp : ({ s with pending := s.pending.set i ((s.pending.get? i).getD [] ++ [(now, m)]) } : St) =
    ⟨s.pending.set i (view s.pending i ++ [(now, m)]), s.log⟩ := rfl
  generalize hs1 : limitClients c ⟨s.pending.set i (view s.pending i ++ [(now, m)]), s.log⟩ = s1 at *
  have hlen : (view s.pending i ++ [(now, m)]).length ≤ c.messages + 1 := by
    have := hs.messages i
    simp; exact this
  obtain ⟨fs2, b1, b2, b3, b4, b5⟩ := limitMessages_spec hm a1.good a2 hlen
  generalize hr : limitMessages c i (view s.pending i ++ [(now, m)]) s1 = r at *
  obtain ⟨s', d1, d2, d3, d4⟩ := dropEach_step (fun n => (out n).fate) i (fun _ => true) b1.good
  have hfs1 : fs1 i = [] := by
    rcases a4 i with h | h
    · exact h.1
    · exact absurd rfl h.1
  have hlist : ∃ gone, Limited c (view s.pending i ++ [(now, m)]) (view r.1.pending i) gone ∧
      fs2 = gone.map (fun e => (Fate.evicted, e.2)) := by
    rcases b5 with ⟨h0, h1, h2⟩ | ⟨h1, h2, h3⟩
    · exact ⟨[], .inl ⟨h0, h2, rfl⟩, h1⟩
    · exact ⟨_, .inr ⟨h1, h3, rfl⟩, h2⟩
  obtain ⟨gone, hg1, hg2⟩ := hlist
  have hne : view r.1.pending i ≠ [] := by
    intro h0
    rcases hg1 with ⟨-, h, -⟩ | ⟨h, h', -⟩
    · rw [h0] at h; simp at h
    · rw [h0] at h'
      have := congrArg List.length h'
      rw [List.length_tail, h] at this
      simp at this
      omega
  have hother : ∀ j, j ≠ i → view s'.pending j = view s1.pending j := fun j hj => by
    unfold view; rw [d4 j hj, b3 j hj]
  refine ⟨s', fun j => fs1 j ++ ((if i = j then fs2 else []) ++
    (if i = j then (purge (fun n => (out n).fate) (fun _ => true) 0 (view r.1.pending i) (view r.1.pending i)).2 else [])),
    view r.1.pending i, gone, ?_, ⟨d2.good, Nat.le_trans d2.len (Nat.le_trans b1.len a3), fun j => ?_⟩, hne, fun j => ?_,
    hg1, ?_, d3, fun j hj => ?_⟩
  · unfold transmit
    simp only [hp, hs1, a2, hr, b2, d1]
    simp [hne]
  · by_cases hj : j = i
    · subst hj
      rw [d3]
      have := (purge_perm (fun n => (out n).fate) (fun _ => true) (view r.1.pending j) 0 (view r.1.pending j)
        (count_le_self _)).2.length_le
      omega
    · rw [hother j hj]
      rcases a4 j with ⟨-, h⟩ | h
      · rw [h hj]; exact hs.messages j
      · rw [h.2.2.2.2.2]; exact Nat.zero_le _
  · rw [d2.log j, b1.log j, a1.log j]
    simp only [List.append_assoc]
  · simp only [if_true]
    rw [hfs1, hg2]; rfl
  · simp only [if_neg (Ne.symm hj), List.append_nil]
    rw [hother j hj]
    rcases a4 j with ⟨h1, h2⟩ | h
    · exact .inl ⟨h1, h2 hj⟩
    · exact .inr ⟨h.2.1, h.2.2.1, h.2.2.2.1, h.2.2.2.2.1, h.2.2.2.2.2⟩

theorem Limited.moves {c : Config} {l0 l gone : List Entry} (h : Limited c l0 l gone) :
    Moves l0 (gone.map (fun e => (Fate.evicted, e.2))) l := by
  rcases h with ⟨-, rfl, rfl⟩ | ⟨-, rfl, rfl⟩
  · exact Moves.refl _
  · refine ⟨?_, List.tail_sublist _⟩
    rw [List.map_map]
    cases l0 with
    | nil => exact List.Perm.refl _
    | cons a l => exact List.Perm.refl _

theorem taken_evicted (l : List Entry) : taken (l.map (fun e => (Fate.evicted, e.2))) = [] := by
  apply taken_nil_of
  intro x hx
  obtain ⟨e, -, rfl⟩ := List.mem_map.1 hx
  exact nofun

theorem inOrder_of_lost {l l' : List Entry} {fs : List (Fate × Msg)} (h : Moves l fs l') (ht : taken fs = []) :
    InOrder l fs l' := by
  unfold InOrder
  rw [ht]
  exact h.sub.map _

theorem fate_none {o : Outcome} (h : o.fate = none) : o = .again := by
  cases o with
  | sent => cases h
  | failed => cases h
  | again => rfl

theorem fate_sent {o : Outcome} (h : o.fate = some .sent) : o = .sent := by
  cases o with
  | sent => rfl
  | failed => cases h
  | again => cases h

/-- What an event adds to the messages of a client. -/
def added : Ev → Id → List Entry
  | .transmit now i m _, j => if i = j then [(now, m)] else []
  | _, _ => []

structure Moved (c : Config) (s s' : St) (ev : Ev) (fs : Id → List (Fate × Msg)) : Prop where
  inv : Inv c s'
  log : ∀ j, fatesOf s'.log j = fatesOf s.log j ++ fs j
  moves : ∀ j, Moves (view s.pending j ++ added ev j) (fs j) (view s'.pending j)
  order : Steady ev → (∀ j, (view s.pending j).Pairwise (fun a b => a.1 ≤ b.1)) →
    ∀ j, InOrder (view s.pending j ++ added ev j) (fs j) (view s'.pending j)

theorem purge_moves (fate : Nat → Option Fate) (due : Entry → Bool) (l : List Entry) :
    Moves l (purge fate due 0 l l).2 (purge fate due 0 l l).1 := by
  have := purge_perm fate due l 0 l (count_le_self _)
  exact ⟨this.1, this.2⟩

theorem dropAll_moved {c : Config} {s : St} (hs : Inv c s) (fate : Id → Nat → Option Fate) (limit now : Nat) (ev : Ev)
    (hadd : ∀ j, added ev j = [])
    (hst : Steady ev → ∀ i n k, n ≤ k → fate i n = none → fate i k ≠ some .sent) :
    ∃ s' fs, eachClient (fun i l s => dropEach (fate i) i (fun e => limit ≤ now - e.1) 0 l s) s.pending.keys s = some s' ∧
      Moved c s s' ev fs ∧
      ∀ i, (view s'.pending i, fs i) =
        purge (fate i) (fun e => limit ≤ now - e.1) 0 (view s.pending i) (view s.pending i) := by
  obtain ⟨s', fs, h1, h2, h3⟩ := dropAll_spec fate (fun e => limit ≤ now - e.1) hs.good
  refine ⟨s', fs, h1, ⟨⟨h2.good, Nat.le_trans h2.len hs.clients, fun i => ?_⟩, h2.log, fun j => ?_,
    fun hst' hsort j => ?_⟩, h3⟩
  · exact Nat.le_trans (h2.moves i).sub.length_le (hs.messages i)
  · rw [hadd, List.append_nil]; exact h2.moves j
  · rw [hadd, List.append_nil]
    have e1 := congrArg Prod.fst (h3 j)
    have e2 := congrArg Prod.snd (h3 j)
    simp only at e1 e2
    rw [e1, e2]
    apply purge_order (hst hst' j)
    refine (hsort j).imp ?_
    intro a b hab hd
    simp only [decide_eq_false_iff_not] at hd ⊢
    omega

theorem step_spec {c : Config} (hc : 1 ≤ c.clients) (hm : 1 ≤ c.messages) {s : St} (hs : Inv c s) (ev : Ev) :
    ∃ s' fs, step c s ev = some s' ∧ Moved c s s' ev fs := by
  cases ev with
  | transmit now i m out =>
    obtain ⟨s', fs, l, gone, h1, h2, h3, h4, h5, h6, h7, h8⟩ := transmit_spec hc hm hs now i m out
    have hmv : ∀ j, Moves (view s.pending j ++ added (.transmit now i m out) j) (fs j) (view s'.pending j) := by
      intro j
      by_cases hj : j = i
      · subst hj
        simp only [added, if_true]
        rw [h6, h7]
        exact h5.moves.trans (purge_moves _ _ l)
      · simp only [added, if_neg (Ne.symm hj), List.append_nil]
        rcases h8 j hj with ⟨a, b⟩ | ⟨-, -, -, a, b⟩
        · rw [a, b]; exact Moves.refl _
        · rw [a, b]
          refine ⟨?_, List.nil_sublist _⟩
          rw [List.map_map, List.map_nil, List.append_nil]
          exact List.Perm.refl _
    refine ⟨s', fs, by simp [step, h1], ⟨h2, h4, hmv, fun hst _ j => ?_⟩⟩
    by_cases hj : j = i
    · subst hj
      simp only [added, if_true]
      rw [h6, h7]
      refine (inOrder_of_lost h5.moves (taken_evicted gone)).trans ?_
      apply purge_order
      · intro n k hnk hn hk
        exact hst n k hnk (fate_none hn) (fate_sent hk)
      · exact List.pairwise_of_forall (fun _ _ h => h)
    · have hmj := hmv j
      simp only [added, if_neg (Ne.symm hj), List.append_nil] at hmj ⊢
      apply inOrder_of_lost hmj
      rcases h8 j hj with ⟨a, b⟩ | ⟨-, -, -, a, b⟩
      · rw [a]; rfl
      · rw [a]; exact taken_evicted _
  | resend now out =>
    obtain ⟨s', fs, h1, h2, -⟩ := dropAll_moved hs (fun i n => (out i n).fate) c.resend now (.resend now out)
      (fun _ => rfl) (fun hst i n k hnk hn hk => hst i n k hnk (fate_none hn) (fate_sent hk))
    exact ⟨s', fs, h1, h2⟩
  | removeOld now =>
    obtain ⟨s', fs, h1, h2, -⟩ := dropAll_moved hs (fun _ _ => some .expired) c.remove now (.removeOld now)
      (fun _ => rfl) (fun _ i n k _ hn => by cases hn)
    exact ⟨s', fs, h1, h2⟩

/-! ## Over a history -/

theorem runFrom_snoc (c : Config) (s : St) (evs : List Ev) (e : Ev) :
    runFrom c s (evs ++ [e]) = (runFrom c s evs).bind (step c · e) := by
  simp [runFrom]

theorem given_snoc (evs : List Ev) (e : Ev) (i : Id) : given (evs ++ [e]) i = given evs i ++ (added e i).map Prod.snd := by
  unfold given
  rw [List.filterMap_append]
  congr 1
  cases e with
  | transmit now j m out =>
    simp only [added]
    by_cases h : j = i <;> simp [h]
  | resend now out => rfl
  | removeOld now => rfl

theorem sentTo_eq (s : St) (i : Id) : sentTo s i = taken (fatesOf s.log i) := by
  unfold sentTo taken fatesOf
  rw [List.filterMap_filterMap]
  congr 1
  funext x
  by_cases h : x.2.1 = i <;> simp [h]

theorem kept_eq (s : St) (i : Id) : kept s i = (view s.pending i).map Prod.snd := rfl

theorem taken_lost_perm (fs : List (Fate × Msg)) :
    (taken fs ++ fs.filterMap (fun x => if x.1 ≠ .sent then some x.2 else none)).Perm (fs.map Prod.snd) := by
  induction fs with
  | nil => exact List.Perm.refl _
  | cons f fs ih =>
    by_cases h : f.1 = .sent
    · have e1 : taken (f :: fs) = f.2 :: taken fs := by simp [taken, h]
      have e2 : (f :: fs).filterMap (fun x => if x.1 ≠ .sent then some x.2 else none) =
          fs.filterMap (fun x => if x.1 ≠ .sent then some x.2 else none) := by simp [h]
      rw [e1, e2]
      exact ih.cons _
    · have e1 : taken (f :: fs) = taken fs := by simp [taken, h]
      have e2 : (f :: fs).filterMap (fun x => if x.1 ≠ .sent then some x.2 else none) =
          f.2 :: fs.filterMap (fun x => if x.1 ≠ .sent then some x.2 else none) := by simp [h]
      rw [e1, e2]
      exact List.perm_middle.trans (ih.cons _)

theorem lost_eq (s : St) (i : Id) :
    lost s i = (fatesOf s.log i).filterMap (fun x => if x.1 ≠ .sent then some x.2 else none) := by
  unfold lost fatesOf
  rw [List.filterMap_filterMap]
  congr 1
  funext x
  by_cases h : x.2.1 = i <;> simp [h]

theorem run_inv {c : Config} (hc : 1 ≤ c.clients) (hm : 1 ≤ c.messages) (evs : List Ev) :
    ∃ s, run c evs = some s ∧ Inv c s ∧
      ∀ i, ((fatesOf s.log i).map Prod.snd ++ (view s.pending i).map Prod.snd).Perm (given evs i) := by
  induction evs using snoc_induction with
  | nil => exact ⟨{}, rfl, Inv.init c, fun i => List.Perm.refl _⟩
  | snoc evs e ih =>
    obtain ⟨s, h1, h2, h3⟩ := ih
    obtain ⟨s', fs, g1, g2⟩ := step_spec hc hm h2 e
    refine ⟨s', ?_, g2.inv, fun i => ?_⟩
    · unfold run at h1 ⊢
      rw [runFrom_snoc, h1]
      exact g1
    · rw [g2.log i, given_snoc, List.map_append, List.append_assoc]
      have := (g2.moves i).perm
      rw [List.map_append] at this
      refine (this.append_left _).trans ?_
      rw [← List.append_assoc]
      exact (h3 i).append_right _

theorem run_order {c : Config} (hc : 1 ≤ c.clients) (hm : 1 ≤ c.messages) (evs : List Ev)
    (ht : (evs.map time).Pairwise (· ≤ ·)) (hst : ∀ e ∈ evs, Steady e) :
    ∃ s, run c evs = some s ∧ Inv c s ∧
      (∀ i, (taken (fatesOf s.log i) ++ (view s.pending i).map Prod.snd).Sublist (given evs i)) ∧
      (∀ i, (view s.pending i).Pairwise (fun a b => a.1 ≤ b.1)) ∧
      ∀ i, ∀ x ∈ view s.pending i, ∃ e ∈ evs, x.1 = time e := by
  induction evs using snoc_induction with
  | nil =>
    exact ⟨{}, rfl, Inv.init c, fun i => List.Sublist.refl _, fun i => List.Pairwise.nil, fun i x hx => by cases hx⟩
  | snoc evs e ih =>
    rw [List.map_append, List.pairwise_append] at ht
    obtain ⟨s, h1, h2, h3, h4, h5⟩ := ih ht.1 (fun x hx => hst x (List.mem_append_left _ hx))
    obtain ⟨s', fs, g1, g2⟩ := step_spec hc hm h2 e
    have hst' := hst e (List.mem_append_right _ List.mem_cons_self)
    have hadd : ∀ i, ∀ x ∈ added e i, x.1 = time e := by
      intro i x hx
      cases e with
      | transmit now j m out =>
        simp only [added] at hx
        split at hx
        · rw [List.mem_singleton.1 hx]; rfl
        · cases hx
      | resend now out => cases hx
      | removeOld now => cases hx
    have hpa : ∀ i, (added e i).Pairwise (fun a b => a.1 ≤ b.1) := by
      intro i
      cases e with
      | transmit now j m out =>
        simp only [added]
        split
        · exact List.pairwise_singleton _ _
        · exact List.Pairwise.nil
      | resend now out => exact List.Pairwise.nil
      | removeOld now => exact List.Pairwise.nil
    refine ⟨s', ?_, g2.inv, fun i => ?_, fun i => ?_, fun i x hx => ?_⟩
    · unfold run at h1 ⊢
      rw [runFrom_snoc, h1]
      exact g1
    · rw [g2.log i, given_snoc, taken_append, List.append_assoc]
      have := g2.order hst' h4 i
      unfold InOrder at this
      rw [List.map_append] at this
      refine ((List.Sublist.refl _).append this).trans ?_
      rw [← List.append_assoc]
      exact (h3 i).append (List.Sublist.refl _)
    · refine List.Pairwise.sublist (g2.moves i).sub ?_
      rw [List.pairwise_append]
      refine ⟨h4 i, hpa i, fun a ha b hb => ?_⟩
      obtain ⟨x, hx, hxe⟩ := h5 i a ha
      rw [hxe, hadd i b hb]
      exact ht.2.2 _ (List.mem_map_of_mem hx) _ (by simp)
    · rcases List.mem_append.1 ((g2.moves i).sub.subset hx) with h | h
      · obtain ⟨y, hy, e1⟩ := h5 i x h
        exact ⟨y, List.mem_append_left _ hy, e1⟩
      · exact ⟨e, List.mem_append_right _ List.mem_cons_self, hadd i x h⟩

theorem purge_last {fate : Nat → Option Fate} {f : Fate} (e : Entry) :
    ∀ (es : List Entry) (n : Nat) (l : List Entry), fate (n + es.length) = some f →
    ∃ fs, (purge fate (fun _ => true) n (es ++ [e]) l).2 = fs ++ [(f, e.2)] := by
  intro es
  induction es with
  | nil =>
    intro n l h
    have h : fate n = some f := h
    refine ⟨[], ?_⟩
    simp [purge, h]
  | cons x es ih =>
    intro n l h
    have h' : fate (n + 1 + es.length) = some f := by
      rw [← h]; congr 1; simp; omega
    rw [List.cons_append]
    unfold purge
    rw [if_pos rfl]
    cases hn : fate n with
    | none => exact ih (n + 1) l h'
    | some g =>
      obtain ⟨fs, hfs⟩ := ih (n + 1) (l.erase x) h'
      refine ⟨(g, x.2) :: fs, ?_⟩
      simp only [hfs, List.cons_append]

/-- If all attempts come to the same, what is due leaves and the rest stays. -/
theorem purge_const {f : Fate} {due : Entry → Bool} :
    ∀ (es kept : List Entry) (n : Nat), (∀ e ∈ kept, due e = false) →
    purge (fun _ => some f) due n es (kept ++ es) =
      (kept ++ es.filter (fun e => !due e), (es.filter due).map (fun e => (f, e.2))) := by
  intro es
  induction es with
  | nil => intro kept n _; simp [purge]
  | cons e es ih =>
    intro kept n hk
    unfold purge
    by_cases hd : due e = true
    · rw [if_pos hd]
      have hne : e ∉ kept := fun h => by rw [hk e h] at hd; cases hd
      simp only
      rw [List.erase_append_right _ hne, List.erase_cons_head, ih kept (n + 1) hk]
      simp [hd]
    · rw [if_neg hd]
      have hd' : due e = false := by simpa using hd
      have : kept ++ e :: es = (kept ++ [e]) ++ es := by simp
      rw [this, ih (kept ++ [e]) n (by
        intro x hx
        rcases List.mem_append.1 hx with h | h
        · exact hk x h
        · rw [List.mem_singleton.1 h]; exact hd')]
      simp [hd']

end Verif.ClientSend
