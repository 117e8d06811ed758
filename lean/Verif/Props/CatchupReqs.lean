import Verif.Props.Catchup
/-!
# What is requested during catchup (C33, C65)
-/
namespace Verif.Props
open Verif.Catchup

/-- The sequence numbers a request asks for. -/
def asked (r : Req) : List Nat := List.range' r.lo (r.hi + 1 - r.lo)

theorem le_bestSize {l : List (Name × Nat)} {e : Name × Nat} (h : e ∈ l) : e.2 ≤ bestSize l := by
  induction l with
  | nil => simp at h
  | cons a l ih =>
    simp only [bestSize, List.map_cons, List.foldr_cons] at ih ⊢
    rcases List.mem_cons.1 h with h | h
    · subst h; omega
    · have := ih h; omega

theorem bestSize_mem {l : List (Name × Nat)} (h : l ≠ []) : ∃ e ∈ l, e.2 = bestSize l := by
  induction l with
  | nil => exact absurd rfl h
  | cons a l ih =>
    simp only [bestSize, List.map_cons, List.foldr_cons] at ih ⊢
    by_cases hl : l = []
    · subst hl; exact ⟨a, by simp, by simp⟩
    · obtain ⟨e, he, h⟩ := ih hl
      by_cases hle : a.2 ≤ e.2
      · exact ⟨e, List.mem_cons_of_mem _ he, by omega⟩
      · exact ⟨a, List.mem_cons_self, by omega⟩

theorem range'_split (a b c : Nat) (h1 : a ≤ b + 1) (h2 : b ≤ c) :
    List.range' a (c + 1 - a) = List.range' a (b + 1 - a) ++ List.range' (b + 1) (c - b) := by
  have := List.range'_append_1 (s := a) (m := b + 1 - a) (n := c - b)
  rw [show a + (b + 1 - a) = b + 1 by omega] at this
  rw [this]
  congr 1
  omega

theorem perm_eraseIdx {β : Type} : ∀ (l : List β) (i : Nat) (h : i < l.length), l.Perm (l[i] :: l.eraseIdx i)
  | _ :: _, 0, _ => by simp
  | a :: l, i + 1, h => by
    simp only [List.getElem_cons_succ, List.eraseIdx_cons_succ]
    exact ((perm_eraseIdx l i (by simpa using h)).cons a).trans (.swap _ _ _)

theorem reqLoop_spec (start batch : Nat) (hs : 1 ≤ start) : ∀ (k : Nat) (nodes : List (Name × Nat)) (pos : Nat),
    nodes.length = k → (nodes.map Prod.fst).Nodup → (∀ e ∈ nodes, start ≤ e.2) →
    (start ≤ pos → ∃ e ∈ nodes, pos ≤ e.2) → start ≤ pos + 1 →
    ∃ reqs, reqLoop start batch nodes pos = some reqs ∧
      (reqs.flatMap asked).Perm (List.range' start (pos + 1 - start)) ∧
      (∀ r ∈ reqs, r.lo ≤ r.hi ∧ ∃ e ∈ nodes, e.1 = r.node ∧ r.hi ≤ e.2) ∧ (reqs.map Req.node).Nodup
  | 0, nodes, pos, hk, hn, hst, hex, hp => by
    have : nodes = [] := List.length_eq_zero_iff.1 hk
    subst this
    have hpos : pos < start := by
      apply Decidable.byContradiction
      intro h
      obtain ⟨e, he, _⟩ := hex (by omega)
      simp at he
    refine ⟨[], by simp [reqLoop], ?_, by simp, by simp⟩
    rw [show pos + 1 - start = 0 by omega]
    simp
  | k + 1, nodes, pos, hk, hn, hst, hex, hp => by
    rw [reqLoop.eq_def]
    have hne : nodes ≠ [] := by rintro rfl; simp at hk
    rw [if_neg hne]
    by_cases hlt : pos < start
    · rw [if_pos hlt]
      refine ⟨[], rfl, ?_, by simp, by simp⟩
      rw [show pos + 1 - start = 0 by omega]
      simp
    · rw [if_neg hlt]
      obtain ⟨e0, he0, hge0⟩ := hex (by omega)
      cases hi : nodes.findIdx? (fun e => decide (e.2 ≥ pos)) with
      | none =>
        exfalso
        rw [List.findIdx?_eq_none_iff] at hi
        have := hi e0 he0
        simp at this
        omega
      | some i =>
        obtain ⟨hil, hip, _⟩ := List.findIdx?_eq_some_iff_getElem.1 hi
        have hip : pos ≤ nodes[i].2 := by simpa using hip
        simp only
        have hlen : (nodes.eraseIdx i).length = k := by rw [List.length_eraseIdx_of_lt hil]; omega
        have hsub : (nodes.eraseIdx i).Sublist nodes := List.eraseIdx_sublist _ _
        -- the number asked for
        generalize hc : (if nodes.length > 1 ∧
            pos - min (pos - start + 1) (max batch ((pos - start + 1) / nodes.length)) > bestSize (nodes.eraseIdx i)
            then pos - bestSize (nodes.eraseIdx i)
            else min (pos - start + 1) (max batch ((pos - start + 1) / nodes.length))) = c
        have hcle : c ≤ pos - start + 1 ∧ (start ≤ pos - c → ∃ e ∈ nodes.eraseIdx i, pos - c ≤ e.2) := by
          by_cases hk0 : k = 0
          · subst hk0
            rw [if_neg (by omega), hk] at hc
            refine ⟨by omega, fun h => ?_⟩
            simp only [Nat.zero_add, Nat.div_one] at hc
            omega
          · have hrne : nodes.eraseIdx i ≠ [] := by
              intro h; rw [h] at hlen; simp at hlen; omega
            obtain ⟨e, he, heb⟩ := bestSize_mem hrne
            have hes := hst e (hsub.subset he)
            split at hc
            · exact ⟨by omega, fun h => ⟨e, he, by omega⟩⟩
            · rename_i hcond
              refine ⟨by omega, fun h => ⟨e, he, ?_⟩⟩
              have : ¬ (pos - min (pos - start + 1) (max batch ((pos - start + 1) / nodes.length)) > bestSize (nodes.eraseIdx i)) :=
                fun h => hcond ⟨by omega, h⟩
              rw [hc] at this
              omega
        obtain ⟨reqs, h1, h2, h3, h4⟩ := reqLoop_spec start batch hs k (nodes.eraseIdx i) (pos - c) hlen
          (hn.sublist (hsub.map _)) (fun e he => hst e (hsub.subset he)) hcle.2 (by omega)
        rw [h1]
        simp only
        have hget : (nodes[i]?.getD (0, 0)) = nodes[i] := by simp [hil]
        rw [hget]
        refine ⟨_, rfl, ?_, ?_, ?_⟩
        · split
          · rename_i hcp
            rw [List.flatMap_cons]
            have e1 : asked ⟨nodes[i].1, pos - c + 1, pos⟩ = List.range' (pos - c + 1) (pos - (pos - c)) := by
              simp only [asked]
              congr 1
              omega
            rw [e1, range'_split start (pos - c) pos (by omega) (by omega)]
            exact List.perm_append_comm.trans (h2.append_right _)
          · rename_i hcp
            rw [show pos - c = pos by omega] at h2
            exact h2
        · intro r hr
          have : r ∈ reqs ∨ (c > 0 ∧ r = ⟨nodes[i].1, pos - c + 1, pos⟩) := by
            split at hr
            · rename_i hcp
              rcases List.mem_cons.1 hr with h | h
              · exact .inr ⟨hcp, h⟩
              · exact .inl h
            · exact .inl hr
          rcases this with h | ⟨hcp, h⟩
          · obtain ⟨p1, e, p2, p3⟩ := h3 r h
            exact ⟨p1, e, hsub.subset p2, p3⟩
          · subst h
            exact ⟨by simp only; omega, nodes[i], List.getElem_mem hil, rfl, hip⟩
        · split
          · rw [List.map_cons, List.nodup_cons]
            refine ⟨?_, h4⟩
            intro hm
            obtain ⟨r, hr, hrn⟩ := List.mem_map.1 hm
            obtain ⟨_, e, he, hen, _⟩ := h3 r hr
            have hin : nodes[i].1 ∈ (nodes.eraseIdx i).map Prod.fst := by
              simp only at hrn
              rw [← hrn, ← hen]; exact List.mem_map_of_mem he
            have hperm : nodes.Perm (nodes[i] :: nodes.eraseIdx i) := perm_eraseIdx nodes i hil
            have := (hperm.map Prod.fst).nodup_iff.1 hn
            rw [List.map_cons, List.nodup_cons] at this
            exact this.1 hin
          · exact h4

/-- **C33.** Whatever sizes the nodes reported, however the nodes are shuffled and
whatever the batch size, if some node has the last transaction then the requests made for
`start..stop` together ask for exactly those transactions, each once. Each request asks
for at least one, each node gets at most one request, and no node is asked for
transactions beyond the size it reported. -/
theorem C33_partition (shuffle : List (Name × Nat) → List (Name × Nat)) (hsh : ∀ l, (shuffle l).Perm l)
    (start stop batch : Nat) (sizes : Dict Name Nat) (hn : sizes.keys.Nodup) (hs : 1 ≤ start) (hle : start ≤ stop)
    (hex : ∃ e ∈ sizes, stop ≤ e.2) :
    ∃ reqs, buildReqs shuffle start stop batch sizes = some reqs ∧
      (reqs.flatMap asked).Perm (List.range' start (stop + 1 - start)) ∧
      (∀ r ∈ reqs, r.lo ≤ r.hi ∧ ∃ size, (r.node, size) ∈ sizes ∧ r.hi ≤ size) ∧ (reqs.map Req.node).Nodup := by
  unfold buildReqs
  generalize hl : (sizes.filter (fun e => decide (e.2 ≥ start))).map (fun e => (e.1, min e.2 stop)) = l
  have hmem : ∀ e ∈ shuffle l, ∃ size, (e.1, size) ∈ sizes ∧ start ≤ size ∧ e.2 = min size stop := by
    intro e he
    have := (hsh l).mem_iff.1 he
    rw [← hl] at this
    obtain ⟨x, hx, hxe⟩ := List.mem_map.1 this
    have hx := List.mem_filter.1 hx
    subst hxe
    exact ⟨x.2, hx.1, by simpa using hx.2, rfl⟩
  obtain ⟨reqs, h1, h2, h3, h4⟩ := reqLoop_spec start batch hs _ (shuffle l) stop rfl
    (by
      rw [((hsh l).map Prod.fst).nodup_iff, ← hl, List.map_map]
      exact hn.sublist ((List.filter_sublist).map Prod.fst))
    (by
      intro e he
      obtain ⟨size, _, h1, h2⟩ := hmem e he
      omega)
    (by
      intro _
      obtain ⟨e, he, hse⟩ := hex
      refine ⟨(e.1, min e.2 stop), (hsh l).mem_iff.2 ?_, by simp only; omega⟩
      rw [← hl]
      exact List.mem_map.2 ⟨e, List.mem_filter.2 ⟨he, by simp; omega⟩, rfl⟩)
    (by omega)
  refine ⟨reqs, h1, h2, ?_, h4⟩
  intro r hr
  obtain ⟨p1, e, p2, p3, p4⟩ := h3 r hr
  obtain ⟨size, q1, _, q2⟩ := hmem e p2
  rw [p3] at q1
  exact ⟨p1, size, q1, by omega⟩

/-- **C33** (the choice of nodes). The same for a range of the target during
catchup, when there is any eligible node: only eligible nodes are asked, and
only those that reported a ledger of the final size, if there are such. -/
theorem C33_send (shuffle : List (Name × Nat) → List (Name × Nat)) (hsh : ∀ l, (shuffle l).Perm l)
    (eligible : List Name) (hel : eligible.Nodup) (hne : eligible ≠ []) (reported : Dict Name Nat)
    (hn : reported.keys.Nodup) (final batch start stop : Nat) (hs : 1 ≤ start) (hle : start ≤ stop) (hf : stop ≤ final) :
    ∃ reqs, sendReqs shuffle eligible reported final batch start stop = some reqs ∧
      (reqs.flatMap asked).Perm (List.range' start (stop + 1 - start)) ∧ (reqs.map Req.node).Nodup ∧
      (∀ r ∈ reqs, r.lo ≤ r.hi ∧ r.node ∈ eligible ∧
        ((∃ size, (r.node, size) ∈ reported ∧ final ≤ size) ∨
          ∀ e ∈ reported, e.1 ∈ eligible → e.2 < final)) := by
  unfold sendReqs
  simp only
  split
  · rename_i hem
    have hkeys : Dict.keys (eligible.map (fun n => (n, stop))) = eligible := by
      simp [Dict.keys, Function.comp_def]
    obtain ⟨reqs, h1, h2, h3, h4⟩ := C33_partition shuffle hsh start stop batch (eligible.map (fun n => (n, stop)))
      (by rw [hkeys]; exact hel) hs hle (by
        obtain ⟨x, hx⟩ := List.exists_mem_of_ne_nil _ hne
        exact ⟨(x, stop), List.mem_map_of_mem hx, Nat.le_refl _⟩)
    refine ⟨reqs, h1, h2, h4, ?_⟩
    intro r hr
    obtain ⟨p1, size, p2, _⟩ := h3 r hr
    obtain ⟨x, hx, he⟩ := List.mem_map.1 p2
    injection he with he _
    subst he
    refine ⟨p1, hx, .inr ?_⟩
    intro e he hel
    have := List.isEmpty_iff.1 hem
    rw [List.filter_eq_nil_iff] at this
    have := this e he
    simp only [decide_eq_true_eq, not_and] at this
    have := this hel
    omega
  · rename_i hem
    obtain ⟨reqs, h1, h2, h3, h4⟩ := C33_partition shuffle hsh start stop batch
      (reported.filter (fun e => decide (e.1 ∈ eligible ∧ e.2 ≥ final)))
      (hn.sublist ((List.filter_sublist).map Prod.fst)) hs hle (by
        obtain ⟨x, hx⟩ := List.exists_mem_of_ne_nil _ (fun h => hem (List.isEmpty_iff.2 h))
        refine ⟨x, hx, ?_⟩
        have := (List.mem_filter.1 hx).2
        simp only [decide_eq_true_eq] at this
        omega)
    refine ⟨reqs, h1, h2, h4, ?_⟩
    intro r hr
    obtain ⟨p1, size, p2, _⟩ := h3 r hr
    have hf := List.mem_filter.1 p2
    simp only [decide_eq_true_eq] at hf
    exact ⟨p1, hf.2.1, .inl ⟨size, hf.1, hf.2.2⟩⟩

/-- Three nodes with different ledgers share thirteen transactions. -/
example : buildReqs id 3 15 2 [(7, 20), (8, 9), (9, 15)] =
    some [⟨7, 12, 15⟩, ⟨9, 8, 11⟩, ⟨8, 3, 7⟩] := by
  simp [buildReqs, reqLoop, List.findIdx?, List.findIdx?.go, bestSize]

/-! ## C65 -/

theorem gapLoop_spec : ∀ (l : List Int) (last : Int), l.Pairwise (· < ·) → (∀ n ∈ l, last < n) →
    (∀ n, (∃ g ∈ (gapLoop last l).1, g.1 ≤ n ∧ n ≤ g.2) ↔ last < n ∧ n ≤ (gapLoop last l).2 ∧ n ∉ l) ∧
    ((gapLoop last l).1.map (fun g => g.2 - g.1 + 1)).sum = (gapLoop last l).2 - last - l.length ∧
    (∀ g ∈ (gapLoop last l).1, g.1 ≤ g.2 ∧ last < g.1 ∧ g.2 < (gapLoop last l).2) ∧
    (gapLoop last l).1.Pairwise (fun g h => g.2 < h.1) ∧
    (l = [] ∧ (gapLoop last l).2 = last ∨ (gapLoop last l).2 ∈ l) ∧ (∀ n ∈ l, n ≤ (gapLoop last l).2)
  | [], last, _, _ => by
    refine ⟨?_, by simp [gapLoop], by simp [gapLoop], by simp [gapLoop], .inl ⟨rfl, rfl⟩, by simp⟩
    intro n
    simp [gapLoop]
  | m :: l, last, hs, hgt => by
    have hs := List.pairwise_cons.1 hs
    obtain ⟨h1, h2, h3, h4, h5, h6⟩ := gapLoop_spec l m hs.2 hs.1
    have hm := hgt m List.mem_cons_self
    have hge : m ≤ (gapLoop m l).2 := by
      rcases h5 with ⟨_, h⟩ | h
      · omega
      · have := hs.1 _ h; omega
    simp only [gapLoop]
    refine ⟨?_, ?_, ?_, ?_, ?_, ?_⟩
    · intro n
      have h1 := h1 n
      have hml : m ∉ l := fun h => by have := hs.1 m h; omega
      have hnl : n ≤ m → n ∉ l := fun hle h => by have := hs.1 n h; omega
      simp only [List.mem_cons, not_or]
      split
      · rename_i hne
        simp only [List.mem_cons, exists_eq_or_imp]
        rw [h1]
        constructor
        · rintro (h | h)
          · exact ⟨by omega, by omega, by omega, hnl (by omega)⟩
          · exact ⟨by omega, h.2.1, by omega, h.2.2⟩
        · rintro ⟨p1, p2, p3, p4⟩
          by_cases h : n < m
          · left; omega
          · right; exact ⟨by omega, p2, p4⟩
      · rename_i hne
        rw [h1]
        constructor
        · rintro h; exact ⟨by omega, h.2.1, by omega, h.2.2⟩
        · rintro ⟨p1, p2, p3, p4⟩; exact ⟨by omega, p2, p4⟩
    · split
      · simp only [List.map_cons, List.sum_cons, List.length_cons, h2]; omega
      · simp only [List.length_cons, h2]; omega
    · intro g hg
      have : g ∈ (gapLoop m l).1 ∨ (m - last ≠ 1 ∧ g = (last + 1, m - 1)) := by
        split at hg
        · rename_i h
          rcases List.mem_cons.1 hg with hg | hg
          · exact .inr ⟨h, hg⟩
          · exact .inl hg
        · exact .inl hg
      rcases this with h | ⟨h, rfl⟩
      · have := h3 g h; exact ⟨this.1, by omega, this.2.2⟩
      · simp only; omega
    · split
      · rw [List.pairwise_cons]
        refine ⟨?_, h4⟩
        intro g hg
        have := h3 g hg
        simp only; omega
      · exact h4
    · right
      rcases h5 with ⟨rfl, h⟩ | h
      · rw [h]; exact List.mem_cons_self
      · exact List.mem_cons_of_mem _ h
    · intro n hn
      rcases List.mem_cons.1 hn with rfl | hn
      · exact hge
      · exact h6 n hn

/-- **C65** (partial). When the timer of the catchup fires, the ranges requested
again are exactly the transactions still missing: not yet in the ledger and not waiting
among those received. The ranges are not empty and do not overlap. Nothing is requested
only if nothing is missing.

Partial: the transactions received must be numbered within the target, which nothing
checks (`C65_stall`, `C65_crash`). -/
theorem C65_exactly_missing_partial (final size : Nat) (pending : List Int) (hs : pending.Pairwise (· < ·))
    (hin : ∀ n ∈ pending, (size : Int) < n ∧ n ≤ final) :
    match missingRanges final size pending with
    | none => ∀ n : Int, size < n → n ≤ final → n ∈ pending
    | some ranges =>
      (∀ n : Int, (∃ g ∈ ranges, g.1 ≤ n ∧ n ≤ g.2) ↔ size < n ∧ n ≤ final ∧ n ∉ pending) ∧
      (∀ g ∈ ranges, g.1 ≤ g.2) ∧ ranges.Pairwise (fun g h => g.2 < h.1) := by
  obtain ⟨h1, h2, h3, h4, h5, h6⟩ := gapLoop_spec pending size hs (fun n h => (hin n h).1)
  have hlen : ∀ (a : Nat) (b : Int) (l : List Int), l.Pairwise (· < ·) → (∀ n ∈ l, b - a < n ∧ n ≤ b) →
      l.length ≤ a ∧ (l.length = a → ∀ n, b - a < n → n ≤ b → n ∈ l) := by
    intro a b l
    induction l generalizing a with
    | nil =>
      intro _ _
      refine ⟨by simp, ?_⟩
      rintro h n h1 h2
      simp only [List.length_nil] at h
      subst h; omega
    | cons x l ih =>
      intro hs hb
      have hs := List.pairwise_cons.1 hs
      have hx := hb x List.mem_cons_self
      have h := ih (b - x).toNat hs.2 (fun n hn => by
        have := hs.1 n hn; have := hb n (List.mem_cons_of_mem _ hn); omega)
      refine ⟨by simp only [List.length_cons]; omega, ?_⟩
      intro he n h1 h2
      simp only [List.length_cons] at he
      by_cases hn : n = x
      · subst hn; exact List.mem_cons_self
      · apply List.mem_cons_of_mem
        apply h.2 (by omega) n <;> omega
  by_cases hfs : size ≤ final
  · have hl := hlen (final - size) final pending hs (fun n h => by have := hin n h; omega)
    unfold missingRanges
    split
    · rename_i r hr
      split at hr
      · rename_i h0
        intro n n1 n2
        unfold numMissing at h0
        exact hl.2 (by omega) n (by omega) n2
      · cases hr
    · rename_i r hr
      split at hr
      · cases hr
      · rename_i h0
        injection hr with hr
        rw [h2] at hr
        have hleft : (numMissing final size pending.length : Int) - ((gapLoop size pending).2 - size - pending.length) =
            final - (gapLoop size pending).2 := by unfold numMissing; omega
        rw [hleft] at hr
        have hlast : (gapLoop size pending).2 ≤ final ∧ (size : Int) ≤ (gapLoop size pending).2 := by
          rcases h5 with ⟨_, h⟩ | h
          · omega
          · have := hin _ h; omega
        have hr' : r = (gapLoop size pending).1 ++
            (if (gapLoop size pending).2 < final then [((gapLoop size pending).2 + 1, (final : Int))] else []) := by
          rw [← hr]
          congr 1
          by_cases hlt : (gapLoop size pending).2 < final
          · rw [if_pos hlt, if_pos (by omega)]
            split
            · rename_i h; rw [h]
            · rw [if_pos (by omega)]
          · rw [if_neg hlt, if_neg (by omega)]
        subst hr'
        refine ⟨?_, ?_, ?_⟩
        · intro n
          have h1 := h1 n
          have hnm : (gapLoop size pending).2 < n → n ∉ pending := fun h hm => by have := h6 n hm; omega
          constructor
          · rintro ⟨g, hg, hgn⟩
            rcases List.mem_append.1 hg with hg | hg
            · have := h1.1 ⟨g, hg, hgn⟩
              exact ⟨this.1, by omega, this.2.2⟩
            · split at hg
              · simp only [List.mem_singleton] at hg
                subst hg
                simp only at hgn
                exact ⟨by omega, hgn.2, hnm (by omega)⟩
              · simp at hg
          · rintro ⟨p1, p2, p3⟩
            by_cases hle : n ≤ (gapLoop size pending).2
            · obtain ⟨g, hg, hgn⟩ := h1.2 ⟨p1, hle, p3⟩
              exact ⟨g, List.mem_append_left _ hg, hgn⟩
            · rw [if_pos (by omega)]
              exact ⟨_, List.mem_append_right _ List.mem_cons_self, by simp only; omega, p2⟩
        · intro g hg
          rcases List.mem_append.1 hg with hg | hg
          · exact (h3 g hg).1
          · split at hg
            · simp only [List.mem_singleton] at hg
              subst hg; simp only; omega
            · simp at hg
        · rw [List.pairwise_append]
          refine ⟨h4, ?_, ?_⟩
          · split <;> simp
          · intro a ha g hg
            split at hg
            · simp only [List.mem_singleton] at hg
              subst hg
              have := h3 a ha
              simp only; omega
            · simp at hg
  · have : pending = [] := by
      cases pending with
      | nil => rfl
      | cons a l => have := hin a List.mem_cons_self; omega
    subst this
    unfold missingRanges numMissing
    rw [if_pos (by omega)]
    simp only
    intro n n1 n2; omega

example : missingRanges 12 3 [5, 6, 9] = some [(4, 4), (7, 8), (10, 12)] := by decide

/-- **C65 fails** with numbers beyond the target. A node with an empty ledger, catching
up to any log of two transactions, gets one reply `{"3": x, "4": y}`. It keeps both, and
when the timer fires it takes nothing to be missing: it requests nothing and does not set
the timer again, although it has neither transaction. -/
theorem C65_stall (H : Bytes → Bytes) (root x y : Bytes) (frm : Name) :
    let s := State.run (pyEnv H) { ledger := [] }
      [.start (some ⟨0, 2, root⟩), .rep ⟨[("3".toList, x), ("4".toList, y)], []⟩ frm]
    s.working = true ∧ s.ledger = [] ∧ missingRanges 2 s.ledger.length (s.pending.map Prod.fst) = none := by
  have h3 : Py.int ['3'] = some 3 := by decide
  have h4 : Py.int ['4'] = some 4 := by decide
  have hn : numbered (pyEnv H) [("3".toList, x), ("4".toList, y)] = some [(3, x), (4, y)] := by
    simp [numbered, pyEnv, h3, h4]
  have hi : interesting 0 [((3 : Int), x), (4, y)] = [(3, x), (4, y)] := by
    have : [((3 : Int), x), (4, y)].mergeSort le = [(3, x), (4, y)] := List.mergeSort_of_pairwise (by simp [le])
    simp [interesting, this, consecutive]
  have hm : mergeTxns [] [((3 : Int), x), (4, y)] = [(3, x), (4, y)] := by simp [mergeTxns]
  have hl (s : State Bytes) (t : Till) (h : s.ledger = []) :
      processLoop (pyEnv H) s t [((3 : Int), x), (4, y)] 0 = (s, .ok 0) := by
    rw [processLoop.eq_def]
    simp [h]
  have hp : State.processRep (pyEnv H) { ledger := [], working := true, till := some ⟨0, 2, root⟩ }
      ⟨[("3".toList, x), ("4".toList, y)], []⟩ frm =
      ({ ledger := [], working := true, till := some ⟨0, 2, root⟩,
         replies := [(frm, [⟨[("3".toList, x), ("4".toList, y)], []⟩])], pending := [((3 : Int), x), (4, y)] }, none) := by
    unfold State.processRep
    simp only [hn, hi, List.length_nil]
    simp [processTxns, hm, Dict.set, hl]
  simp only [State.run, List.foldl_cons, List.foldl_nil, State.step, State.start]
  simp only [List.length_nil, show ¬ (0 ≥ 2) by decide, if_false]
  simp only [hp]
  exact ⟨trivial, trivial, rfl⟩

/-- **C65 fails** in another way: a single number beyond the target makes the node ask
for a range that reaches beyond it. If every node that reported a ledger of
the final size reported one that ends before that range does, making the requests
raises an exception. -/
theorem C65_crash (shuffle : List (Name × Nat) → List (Name × Nat)) (hsh : ∀ l, (shuffle l).Perm l)
    (eligible : List Name) (reported : Dict Name Nat) (final batch start stop : Nat) (h1 : start ≤ final)
    (h2 : start ≤ stop) (h3 : ∃ e ∈ reported, e.1 ∈ eligible ∧ final ≤ e.2) (h4 : ∀ e ∈ reported, e.2 < stop) :
    sendReqs shuffle eligible reported final batch start stop = none := by
  unfold sendReqs buildReqs
  simp only
  obtain ⟨e, he, h5, h6⟩ := h3
  have hmem : e ∈ reported.filter (fun e => decide (e.1 ∈ eligible ∧ e.2 ≥ final)) :=
    List.mem_filter.2 ⟨he, by simpa using ⟨h5, h6⟩⟩
  rw [if_neg (by intro h; rw [List.isEmpty_iff.1 h] at hmem; simp at hmem)]
  generalize hl : ((reported.filter (fun e => decide (e.1 ∈ eligible ∧ e.2 ≥ final))).filter
    (fun e => decide (e.2 ≥ start))).map (fun e => (e.1, min e.2 stop)) = l
  have hel : (e.1, min e.2 stop) ∈ shuffle l := by
    rw [(hsh l).mem_iff, ← hl]
    exact List.mem_map.2 ⟨e, List.mem_filter.2 ⟨hmem, by simp; omega⟩, rfl⟩
  rw [reqLoop.eq_def, if_neg (by intro h; rw [h] at hel; simp at hel), if_neg (by omega)]
  have hnone : (shuffle l).findIdx? (fun e => decide (e.2 ≥ stop)) = none := by
    rw [List.findIdx?_eq_none_iff]
    intro x hx
    rw [(hsh l).mem_iff, ← hl] at hx
    obtain ⟨y, hy, rfl⟩ := List.mem_map.1 hx
    have := h4 y (List.mem_filter.1 (List.mem_filter.1 hy).1).1
    simp only [ge_iff_le, decide_eq_false_iff_not]
    omega
  split
  · rfl
  · rename_i h; rw [hnone] at h; cases h

/-- The number 5 among the received, with an empty ledger and a target of 2, and four
nodes with ledgers of size 2. -/
example : missingRanges 2 0 [5] = some [(1, 4)] ∧
    sendReqs id [1, 2, 3, 4] [(1, 2), (2, 2), (3, 2), (4, 2)] 2 5 1 4 = none :=
  ⟨by decide, C65_crash id (fun _ => .refl _) _ _ 2 5 1 4 (by decide) (by decide) ⟨(1, 2), by simp⟩ (by simp)⟩

end Verif.Props
