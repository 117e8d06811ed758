import Verif.Spec.Wallet
import Verif.Proofs.Count
/-!
# C111: a wallet signs with the key last given for the identifier, and is stored inside its directory
-/
namespace Verif.Props
open Verif Verif.Wallet Verif.Wallet.Spec

theorem wal_truthy {a : Option Str} {x : Str} : truthy a = some x ↔ a = some x ∧ x ≠ [] := by
  cases a with
  | none => simp [truthy]
  | some y =>
    cases y with
    | nil =>
      constructor
      · intro h; cases h
      · rintro ⟨h, h0⟩; cases h; exact absurd rfl h0
    | cons c r =>
      constructor
      · intro h; cases h; exact ⟨rfl, by simp⟩
      · rintro ⟨h, _⟩; exact h

theorem wal_truthy_some {x : Str} (h : x ≠ []) : truthy (some x) = some x := wal_truthy.2 ⟨rfl, h⟩

theorem wal_given (s : Signer) (a : Option Str) :
    aliasGiven s a = (match truthy a with | some x => some x | none => truthy s.alias) := by
  unfold aliasGiven
  match a with
  | none =>
    simp only [truthy]
    cases s.alias with
    | none => rfl
    | some y => cases y <;> rfl
  | some [] =>
    simp only [truthy]
    cases s.alias with
    | none => rfl
    | some y => cases y <;> rfl
  | some (c :: r) => rfl

theorem wal_add (w : Wallet) (s : Signer) (a : Option Str) :
    (∀ i, ((w.add s a).signers.get? i).map (·.key) = if s.ident = i then some s.key else (w.signers.get? i).map (·.key)) ∧
    (∀ x, (w.add s a).aliases.get? x = if aliasGiven s a = some x then some s.ident else w.aliases.get? x) ∧
    (w.add s a).default = (match w.default with | none => some s.ident | some d => some d) := by
  rw [wal_given]
  cases h : truthy a with
  | none =>
    simp only [Wallet.add, h]
    refine ⟨fun i => ?_, fun x => ?_, rfl⟩
    · rw [Dict.get?_set]; split <;> rfl
    · cases truthy s.alias with
      | none => simp
      | some y => simp only [Dict.get?_set, Option.some.injEq]
  | some y =>
    have hy : truthy (some y) = some y := wal_truthy_some (wal_truthy.1 h).2
    simp only [Wallet.add, h, hy]
    refine ⟨fun i => ?_, fun x => ?_, rfl⟩
    · rw [Dict.get?_set]; split <;> rfl
    · simp only [Dict.get?_set, Option.some.injEq]

theorem wal_update (w : Wallet) (j : Str) (s : Signer) :
    (∀ i, ((w.step (.update j s)).signers.get? i).map (·.key)
      = if j = i ∧ s.ident = i ∧ ((w.signers.get? i).map (·.key)).isSome then some s.key else (w.signers.get? i).map (·.key)) ∧
    (w.step (.update j s)).aliases = w.aliases ∧ (w.step (.update j s)).default = w.default := by
  simp only [Wallet.step, Wallet.update]
  by_cases h : j = s.ident
  · subst h
    simp only [ne_eq, not_true_eq_false, if_false]
    cases hg : w.signers.get? s.ident with
    | none =>
      refine ⟨fun i => ?_, rfl, rfl⟩
      by_cases e : s.ident = i
      · subst e; simp [hg]
      · simp [e]
    | some old =>
      refine ⟨fun i => ?_, rfl, rfl⟩
      simp only [Option.getD_some, Dict.get?_set]
      by_cases e : s.ident = i
      · subst e
        simp only [if_true, hg, Option.map_some, Option.isSome_some, and_self]
        congr 1
        split
        · split <;> rfl
        · rfl
      · simp [e]
  · rw [if_pos h, Option.getD_none]
    refine ⟨fun i => ?_, rfl, rfl⟩
    rw [if_neg]
    rintro ⟨h1, h2, _⟩
    exact h (h1.trans h2.symm)

theorem wal_run (ops : List Op) : ∀ (w : Wallet),
    (∀ i, ((ops.foldl Wallet.step w).signers.get? i).map (·.key) = keyOf i ops ((w.signers.get? i).map (·.key))) ∧
    (∀ a, (ops.foldl Wallet.step w).aliases.get? a = aliasOf a ops (w.aliases.get? a)) ∧
    (ops.foldl Wallet.step w).default = (match w.default with | none => first ops | some d => some d) := by
  induction ops with
  | nil => intro w; exact ⟨fun _ => rfl, fun _ => rfl, by cases h : w.default <;> simp [first, h]⟩
  | cons o r ih =>
    intro w
    obtain ⟨h1, h2, h3⟩ := ih (w.step o)
    cases o with
    | add s a =>
      obtain ⟨k1, k2, k3⟩ := wal_add w s a
      refine ⟨fun i => ?_, fun x => ?_, ?_⟩
      · rw [List.foldl_cons, h1, keyOf]; exact congrArg _ (k1 i)
      · rw [List.foldl_cons, h2, aliasOf]; exact congrArg _ (k2 x)
      · rw [List.foldl_cons, h3, show w.step (.add s a) = w.add s a from rfl, k3]
        cases w.default <;> rfl
    | update j s =>
      obtain ⟨k1, k2, k3⟩ := wal_update w j s
      refine ⟨fun i => ?_, fun x => ?_, ?_⟩
      · rw [List.foldl_cons, h1, keyOf]; exact congrArg _ (k1 i)
      · rw [List.foldl_cons, h2, aliasOf, k2]
      · rw [List.foldl_cons, h3, k3]
        cases w.default <;> rfl

theorem wal_keys (ops : List Op) (i : Str) : ((run ops).signerById i).map (·.key) = keyOf i ops none :=
  (wal_run ops {}).1 i

theorem wal_required (w : Wallet) {i : Str} (h0 : i ≠ []) (hc : ':' ∉ i) (al : Option Str) :
    w.requiredIdr (some i) al = some i := by
  simp only [Wallet.requiredIdr, wal_truthy_some h0, hc, if_false]

theorem wal_signMsg (w : Wallet) {i : Str} (h0 : i ≠ []) (hc : ':' ∉ i) (ident : Option Str) (body : Nat) (o : Option Str) :
    w.signMsg ident body (some i) o = ((w.signerById i).map (·.key)).map (fun k => ⟨k, ident, body⟩) := by
  simp only [Wallet.signMsg, orElse, wal_truthy_some h0, wal_required w h0 hc, Option.map_map]
  rfl

/-- C111. Signing with an identifier uses the key which was last given for that identifier, and is refused if there is none. -/
theorem C111_signs (ops : List Op) {i : Str} (h0 : i ≠ []) (hc : ':' ∉ i) (ident : Option Str) (body : Nat)
    (other : Option Str) :
    (run ops).signMsg ident body (some i) other = (keyOf i ops none).map (fun k => ⟨k, ident, body⟩) := by
  rw [wal_signMsg _ h0 hc, wal_keys]

/-- C111. A signed request carries the identifier asked for, or else its own, or else the one added first; and it is signed,
with that identifier in what is signed, by the key last given for it. -/
theorem C111_request (ops : List Op) (r : Req) (i : Option Str) {idr : Str}
    (hidr : idr ≠ [] ∧ ':' ∉ idr)
    (hwho : (i = some idr) ∨ ((i = none ∨ i = some []) ∧ r.ident = some idr) ∨
      ((i = none ∨ i = some []) ∧ (r.ident = none ∨ r.ident = some []) ∧ first ops = some idr)) :
    (run ops).signRequest r i
      = (keyOf idr ops none).map (fun k => ⟨some idr, r.body, some ⟨k, some idr, r.body⟩⟩) := by
  obtain ⟨h0, hc⟩ := hidr
  have hd : (run ops).default = first ops := by
    have := (wal_run ops {}).2.2
    exact this
  have hreq : (run ops).requiredIdr (orElse i r.ident) none = some idr := by
    rcases hwho with h | ⟨h, h'⟩ | ⟨h, h', h''⟩
    · rw [h]; simp only [orElse, wal_truthy_some h0]; exact wal_required _ h0 hc none
    · have : orElse i r.ident = some idr := by
        rcases h with h | h <;> simp [h, orElse, truthy, h']
      rw [this]; exact wal_required _ h0 hc none
    · have hor : orElse i r.ident = r.ident := by
        rcases h with h | h <;> simp [h, orElse, truthy]
      rw [hor]
      have ht : truthy r.ident = none := by rcases h' with h | h <;> simp [h, truthy]
      simp only [Wallet.requiredIdr, ht, hd, h'']
      exact wal_truthy_some h0
  simp only [Wallet.signRequest, hreq]
  rw [wal_signMsg _ h0 hc, wal_keys, Option.map_map]
  rfl

/-- C111. A further signature is put under the identifier asked for, or else the one added first, and is made by the key last
given for it. -/
theorem C111_multi (ops : List Op) (r : Req) (i : Option Str) {idr : Str} (hidr : idr ≠ [] ∧ ':' ∉ idr)
    (hwho : (i = some idr) ∨ ((i = none ∨ i = some []) ∧ first ops = some idr)) :
    (run ops).multiSign r i = (keyOf idr ops none).map (fun k => (idr, ⟨k, r.ident, r.body⟩)) := by
  obtain ⟨h0, hc⟩ := hidr
  have hd : (run ops).default = first ops := (wal_run ops {}).2.2
  have hreq : (run ops).requiredIdr (orElse i (run ops).default) none = some idr := by
    have : orElse i (run ops).default = some idr := by
      rcases hwho with h | ⟨h, h'⟩
      · rw [h]; simp only [orElse, wal_truthy_some h0]
      · rw [hd]; rcases h with h | h <;> simp [h, orElse, truthy, h']
    rw [this]; exact wal_required _ h0 hc none
  simp only [Wallet.multiSign, hreq]
  rw [wal_signMsg _ h0 hc, wal_keys, Option.map_map]
  rfl

/-- C111. The key reported for an identifier, or for the default one, is the one that signs. -/
theorem C111_verkey (ops : List Op) (i : Option Str) {idr : Str} (h0 : idr ≠ [])
    (hwho : (i = some idr) ∨ ((i = none ∨ i = some []) ∧ first ops = some idr)) :
    (run ops).getVerkey i = keyOf idr ops none := by
  have hd : (run ops).default = first ops := (wal_run ops {}).2.2
  have : orElse i (run ops).default = some idr := by
    rcases hwho with h | ⟨h, h'⟩
    · rw [h]; simp only [orElse, wal_truthy_some h0]
    · rw [hd]; rcases h with h | h <;> simp [h, orElse, truthy, h']
  simp only [Wallet.getVerkey, this]
  exact wal_keys ops idr

/-- C111. An alias leads to the identifier it was given to last, and to its key. -/
theorem C111_alias (ops : List Op) (a : Str) {i : Str} (h : aliasOf a ops none = some i) (h0 : i ≠ []) :
    ((run ops).signerByAlias a).map (·.key) = keyOf i ops none ∧
      (a ≠ [] → (run ops).requiredIdr none (some a) = some i) := by
  have ha : (run ops).aliases.get? a = some i := by
    rw [← h]; exact (wal_run ops {}).2.1 a
  constructor
  · simp only [Wallet.signerByAlias, ha, wal_truthy_some h0]
    exact wal_keys ops i
  · intro hn
    have hnone : truthy none = none := rfl
    simp only [Wallet.requiredIdr, hnone, wal_truthy_some hn, ha]
    exact wal_truthy_some h0

/-- C111. An update is refused, and changes nothing, if the signer has another identifier or the identifier is not there. -/
theorem C111_update_refused (ops : List Op) (i : Str) (s : Signer) :
    (run ops).update i s = none ↔ s.ident ≠ i ∨ keyOf i ops none = none := by
  rw [← wal_keys]
  simp only [Wallet.update, Wallet.signerById]
  by_cases h : i = s.ident
  · subst h
    simp only [ne_eq, not_true_eq_false, if_false, false_or]
    cases (run ops).signers.get? s.ident <;> simp
  · have h' : ¬ s.ident = i := fun e => h e.symm
    simp [h, h']

/-- C111. An update keeps the alias which the signer had, when that alias was given in this wallet. -/
theorem C111_update_keeps_alias (ops : List Op) {i a j : Str} {s old : Signer} {w : Wallet}
    (h : (run ops).update i s = some w) (hold : (run ops).signerById i = some old) (ha : old.alias = some a) (h0 : a ≠ [])
    (hg : aliasOf a ops none = some j) : w.signerById i = some ⟨s.ident, some a, s.key⟩ := by
  have hal : (run ops).aliases.get? a = some j := by rw [← hg]; exact (wal_run ops {}).2.1 a
  unfold Wallet.update at h
  unfold Wallet.signerById at hold
  split at h
  · cases h
  · rw [hold] at h
    simp only [ha, wal_truthy_some h0, Dict.has, hal, Option.isSome_some, if_true, Option.some.injEq] at h
    subst h
    simp [Wallet.signerById, Dict.get?_set]

theorem wal_alias_nodup (ops : List Op) : (run ops).aliases.keys.Nodup := by
  have : ∀ (ops : List Op) (w : Wallet), w.aliases.keys.Nodup → (ops.foldl Wallet.step w).aliases.keys.Nodup := by
    intro ops
    induction ops with
    | nil => intro w h; exact h
    | cons o r ih =>
      intro w h
      rw [List.foldl_cons]
      apply ih
      cases o with
      | add s a =>
        simp only [Wallet.step, Wallet.add]
        cases truthy a with
        | none =>
          simp only
          cases truthy s.alias with
          | none => exact h
          | some y => exact Dict.nodup_keys_set h _ _
        | some x =>
          simp only
          cases truthy (some x) with
          | none => exact h
          | some y => exact Dict.nodup_keys_set h _ _
      | update j s => rw [(wal_update w j s).2.1]; exact h
  exact this ops {} List.nodup_nil

/-- C111. The alias reported for an identifier leads to it, and one is reported if there is any. -/
theorem C111_getAlias (ops : List Op) (i : Str) :
    (∀ a, (run ops).getAlias i = some a → aliasOf a ops none = some i) ∧
    ((run ops).getAlias i = none → ∀ a, aliasOf a ops none ≠ some i) := by
  have hal : ∀ a, (run ops).aliases.get? a = aliasOf a ops none := (wal_run ops {}).2.1
  constructor
  · intro a h
    obtain ⟨⟨x, y⟩, h1, h2⟩ := Option.map_eq_some_iff.1 h
    have hm := List.mem_of_find?_eq_some h1
    have hp := List.find?_some h1
    simp at hp h2
    subst hp h2
    rw [← hal]
    exact Dict.get?_of_mem (wal_alias_nodup ops) hm
  · intro h a ha
    have hn := List.find?_eq_none.1 (Option.map_eq_none_iff.1 h)
    rw [← hal] at ha
    exact hn (a, i) (Dict.mem_of_get? ha) (by simp)

/-- C111. The list of a wallet has exactly the aliases that were given, and the identifiers to which no alias leads; so every
identifier is listed, by itself or by an alias that leads to it. -/
theorem C111_listed (ops : List Op) :
    (∀ x, x ∈ (run ops).listIds ↔ (∃ i, aliasOf x ops none = some i) ∨
      ((∃ k, keyOf x ops none = some k) ∧ ∀ a, aliasOf a ops none ≠ some x)) ∧
    (∀ i k, keyOf i ops none = some k →
      i ∈ (run ops).listIds ∨ ∃ a, a ∈ (run ops).listIds ∧ aliasOf a ops none = some i) := by
  have hal : ∀ a, (run ops).aliases.get? a = aliasOf a ops none := (wal_run ops {}).2.1
  have hkey : ∀ i, ((run ops).signers.get? i).map (·.key) = keyOf i ops none := (wal_run ops {}).1
  have hnd := wal_alias_nodup ops
  have hA : ∀ x, x ∈ (run ops).aliases.map (·.1) ↔ ∃ i, aliasOf x ops none = some i := by
    intro x
    rw [show (run ops).aliases.map (·.1) = (run ops).aliases.keys from rfl, Dict.mem_keys]
    simp only [hal]
  have hS : ∀ x, x ∈ (run ops).signers.map (·.1) ↔ ∃ k, keyOf x ops none = some k := by
    intro x
    rw [show (run ops).signers.map (·.1) = (run ops).signers.keys from rfl, Dict.mem_keys, ← hkey]
    cases (run ops).signers.get? x <;> simp
  have hV : ∀ x, x ∈ (run ops).aliases.map (·.2) ↔ ∃ a, aliasOf a ops none = some x := by
    intro x
    rw [List.mem_map]
    constructor
    · rintro ⟨⟨a, b⟩, hm, rfl⟩
      exact ⟨a, by rw [← hal]; exact Dict.get?_of_mem hnd hm⟩
    · rintro ⟨a, h⟩
      rw [← hal] at h
      exact ⟨(a, x), Dict.mem_of_get? h, rfl⟩
  have main : ∀ x, x ∈ (run ops).listIds ↔ (∃ i, aliasOf x ops none = some i) ∨
      ((∃ k, keyOf x ops none = some k) ∧ ∀ a, aliasOf a ops none ≠ some x) := by
    intro x
    unfold Wallet.listIds
    rw [List.mem_append, List.mem_filter, hA, hS, decide_eq_true_iff, hV]
    simp
  refine ⟨main, ?_⟩
  intro i k hk
  by_cases h : ∃ a, aliasOf a ops none = some i
  · obtain ⟨a, ha⟩ := h
    exact .inr ⟨a, (main a).2 (.inl ⟨i, ha⟩), ha⟩
  · exact .inl ((main i).2 (.inr ⟨⟨k, hk⟩, fun a ha => h ⟨a, ha⟩⟩))

/-- C111, the other side: an identifier which gets a second alias is listed twice, and the first alias goes on leading to it. -/
theorem C111_listed_twice (i a b : Str) (k : Nat) (h : a ≠ b) (ha : a ≠ []) (hb : b ≠ []) :
    (run [.add ⟨i, none, k⟩ (some a), .add ⟨i, none, k⟩ (some b)]).listIds = [a, b] ∧
    aliasOf a [.add ⟨i, none, k⟩ (some a), .add ⟨i, none, k⟩ (some b)] none = some i := by
  have ta := wal_truthy_some ha
  have tb := wal_truthy_some hb
  constructor
  · simp [run, Wallet.step, Wallet.add, ta, tb, Wallet.listIds, Dict.set, h]
  · have ga : aliasGiven ⟨i, none, k⟩ (some a) = some a := by
      cases a with
      | nil => exact absurd rfl ha
      | cons c r => rfl
    have gb : aliasGiven ⟨i, none, k⟩ (some b) = some b := by
      cases b with
      | nil => exact absurd rfl hb
      | cons c r => rfl
    have : ¬ b = a := fun e => h e.symm
    simp [aliasOf, ga, gb, this]

theorem wal_afterColon (x y z : Str) (hx : ':' ∉ x) (hy : ':' ∉ y) :
    afterColon (x ++ ':' :: y ++ ':' :: z) = y := by
  have h1 : (x ++ ':' :: y ++ ':' :: z).dropWhile (· ≠ ':') = ':' :: (y ++ ':' :: z) := by
    induction x with
    | nil => simp
    | cons c r ih =>
      have hc : c ≠ ':' := fun e => hx (by simp [e])
      simpa [hc] using ih (fun h => hx (.tail _ h))
  have h2 : ∀ y : Str, ':' ∉ y → (y ++ ':' :: z).takeWhile (· ≠ ':') = y := by
    intro y hy
    induction y with
    | nil => simp
    | cons c r ih =>
      have hc : c ≠ ':' := fun e => hy (by simp [e])
      simpa [hc] using ih (fun h => hy (.tail _ h))
  unfold afterColon
  rw [h1]
  exact h2 y hy

/-- C111, the other side: of an identifier in three parts, such as did:sov:xyz, only the middle part is used; so it is refused,
or another key signs, also when the identifier itself is in the wallet. -/
theorem C111_qualified (ops : List Op) (x y z : Str) (hx : ':' ∉ x) (hy : ':' ∉ y) (hy0 : y ≠ []) (ident : Option Str)
    (body : Nat) (other : Option Str) :
    (run ops).signMsg ident body (some (x ++ ':' :: y ++ ':' :: z)) other
      = (keyOf y ops none).map (fun k => ⟨k, ident, body⟩) := by
  have hne : x ++ ':' :: y ++ ':' :: z ≠ [] := by simp
  have hm : ':' ∈ x ++ ':' :: y ++ ':' :: z := by simp
  simp only [Wallet.signMsg, orElse, wal_truthy_some hne, Wallet.requiredIdr, hm, if_true,
    wal_afterColon x y z hx hy, wal_truthy_some hy0]
  rw [← wal_keys, Option.map_map]
  rfl

/-! ## Files -/

theorem wal_snoc_cases {α : Type} (l : List α) : l = [] ∨ ∃ g n, l = g ++ [n] := by
  rcases List.eq_nil_or_concat l with h | ⟨g, n, h⟩
  · exact .inl h
  · exact .inr ⟨g, n, by rw [h, List.concat_eq_append]⟩

theorem wal_prefix_inside {base d f : Path} (hb : base ≠ []) (hp : base.isPrefixOf d = true) (hd : d = f.dropLast) :
    Inside base f := by
  rw [List.isPrefixOf_iff_prefix] at hp
  obtain ⟨t, ht⟩ := hp
  rcases wal_snoc_cases f with rfl | ⟨g, n, rfl⟩
  · simp at hd; rw [hd] at ht
    exact absurd (List.append_eq_nil_iff.1 ht).1 hb
  · rw [List.dropLast_concat] at hd
    subst hd
    rw [← ht]
    cases t with
    | nil => exact ⟨n, [], by simp⟩
    | cons m t => exact ⟨m, t ++ [n], by simp⟩

theorem wal_climb (base : Path) : ∀ (k : Nat) (t : Path), t.length < k →
    (∀ p, p ∈ climb base k (base ++ t) ↔ ∃ n r, p = base ++ n :: r ∧ (n :: r) <+: t) := by
  intro k
  induction k with
  | zero => intro t h; omega
  | succ k ih =>
    intro t ht p
    rcases wal_snoc_cases t with rfl | ⟨g, n, rfl⟩
    · simp [climb]
    · have hne : base ++ (g ++ [n]) ≠ base := by
        intro e
        have := congrArg List.length e
        simp at this
      have hdl : (base ++ (g ++ [n])).dropLast = base ++ g := by
        rw [← List.append_assoc, List.dropLast_concat]
      simp only [climb, hne, ne_eq, not_false_eq_true, if_true, List.mem_cons, hdl]
      rw [ih g (by simp at ht; omega)]
      constructor
      · rintro (rfl | ⟨m, r, rfl, hpre⟩)
        · cases g with
          | nil => exact ⟨n, [], by simp, by simp⟩
          | cons m g => exact ⟨m, g ++ [n], by simp, by simp⟩
        · exact ⟨m, r, rfl, hpre.trans (List.prefix_append _ _)⟩
      · rintro ⟨m, r, rfl, hpre⟩
        rcases List.prefix_concat_iff.1 hpre with e | hpre
        · left; rw [e]
        · right; exact ⟨m, r, rfl, hpre⟩

/-- C111. Whatever path is given, a wallet is saved to a file inside the base directory only, or refused; and the permissions
set are those of the directories between the two, of all of them and of no others. -/
theorem C111_saved_inside {base : Path} (hb : base ≠ []) {absolute : Bool} {fpath : Path} {t : Touched}
    (h : saveWallet base absolute fpath = some t) :
    Inside base t.file ∧ t.file = normalize base absolute fpath ∧
      ∀ p, p ∈ t.dirs ↔ Inside base p ∧ Inside p t.file := by
  unfold saveWallet at h
  simp only at h
  split at h
  · rename_i hp
    cases h
    refine ⟨wal_prefix_inside hb hp rfl, rfl, ?_⟩
    have hp' := hp
    rw [List.isPrefixOf_iff_prefix] at hp'
    obtain ⟨r, hr⟩ := hp'
    intro p
    simp only
    have hf : normalize base absolute fpath ≠ [] := by
      intro e
      rw [e] at hr
      exact hb (List.append_eq_nil_iff.1 hr).1
    have hl := List.dropLast_concat_getLast hf
    rw [← hr] at hl
    rw [← hr, wal_climb base _ r (by simp; omega)]
    constructor
    · rintro ⟨n, q, rfl, hpre⟩
      refine ⟨⟨n, q, rfl⟩, ?_⟩
      obtain ⟨u, hu⟩ := hpre
      rw [← hl, ← hu]
      cases u with
      | nil => exact ⟨_, [], by simp; rfl⟩
      | cons a u => exact ⟨a, u ++ [_], by simp; rfl⟩
    · rintro ⟨⟨n, q, rfl⟩, m, u, hm⟩
      refine ⟨n, q, rfl, ?_⟩
      rw [← hl] at hm
      have hm' : r ++ [(normalize base absolute fpath).getLast hf] = (n :: q) ++ m :: u := by
        have := hm
        rw [List.append_assoc, List.append_assoc] at this
        exact List.append_cancel_left this
      rcases wal_snoc_cases u with rfl | ⟨u, z, rfl⟩
      · have := List.append_inj' hm' rfl
        rw [this.1]
        exact List.prefix_refl _
      · have h2 : r ++ [(normalize base absolute fpath).getLast hf] = ((n :: q) ++ m :: u) ++ [z] := by
          rw [hm']; simp
        have := List.append_inj' h2 rfl
        rw [this.1]
        exact List.prefix_append _ _
  · cases h

/-- C111. A wallet is read from inside the base directory only, and what was saved under a path is what is read under it. -/
theorem C111_loaded_inside {base : Path} (hb : base ≠ []) (absolute : Bool) (fpath : Path) :
    (∀ f, loadWallet base absolute fpath = some f → Inside base f) ∧
    (∀ t, saveWallet base absolute fpath = some t → loadWallet base absolute fpath = some t.file) := by
  constructor
  · intro f h
    unfold loadWallet at h
    simp only at h
    split at h
    · rename_i hp
      cases h
      exact wal_prefix_inside hb hp rfl
    · cases h
  · intro t h
    unfold saveWallet at h
    unfold loadWallet
    simp only at h ⊢
    split at h
    · rename_i hp
      cases h
      rw [if_pos hp]
    · cases h

theorem wal_resolve (p : Path) (h : ∀ n ∈ p, n ≠ [] ∧ n ≠ ['.'] ∧ n ≠ ['.', '.']) : resolve p = p := by
  have : ∀ (p acc : Path), (∀ n ∈ p, n ≠ [] ∧ n ≠ ['.'] ∧ n ≠ ['.', '.']) →
      p.foldl (fun acc n => if n = ['.'] ∨ n = [] then acc else if n = ['.', '.'] then acc.dropLast else acc ++ [n]) acc
        = acc ++ p := by
    intro p
    induction p with
    | nil => intro acc _; simp
    | cons n r ih =>
      intro acc h
      obtain ⟨h1, h2, h3⟩ := h n (.head _)
      rw [List.foldl_cons, ih _ (fun m hm => h m (.tail _ hm))]
      simp [h1, h2, h3]
  exact this p [] h

/-- C111. A path of plain names, taken from the base directory, is saved just there; an absolute one of plain names is saved
just there if it is inside the base directory, and refused if it is not. -/
theorem C111_plain {base : Path} (hb : base ≠ []) {p : Path} (hp0 : p ≠ [])
    (hbase : ∀ n ∈ base, n ≠ [] ∧ n ≠ ['.'] ∧ n ≠ ['.', '.'])
    (hp : ∀ n ∈ p, n ≠ [] ∧ n ≠ ['.'] ∧ n ≠ ['.', '.']) :
    (saveWallet base false p).map (·.file) = some (base ++ p) ∧
    (Inside base p → (saveWallet base true p).map (·.file) = some p) ∧
    (¬ Inside base p → saveWallet base true p = none ∧ loadWallet base true p = none) := by
  have hdl : ∀ q : Path, q ≠ [] → base.isPrefixOf (base ++ q).dropLast = true := by
    intro q hq
    rw [List.isPrefixOf_iff_prefix]
    rcases wal_snoc_cases q with rfl | ⟨g, n, rfl⟩
    · exact absurd rfl hq
    · rw [← List.append_assoc, List.dropLast_concat]
      exact List.prefix_append _ _
  have hn : normalize base true p = p := wal_resolve p hp
  refine ⟨?_, ?_, ?_⟩
  · have : normalize base false p = base ++ p := by
      apply wal_resolve
      intro n h
      rcases List.mem_append.1 h with h | h
      · exact hbase n h
      · exact hp n h
    simp only [saveWallet, this, hdl p hp0, if_true, Option.map_some]
  · rintro ⟨n, rest, rfl⟩
    simp only [saveWallet, hn, hdl (n :: rest) (by simp), if_true, Option.map_some]
  · intro h
    have : ¬ base.isPrefixOf p.dropLast = true := fun e => h (wal_prefix_inside hb e rfl)
    simp only [saveWallet, loadWallet, hn, this, if_false, and_self, Bool.false_eq_true]

/-! ## Cases -/

/-- Two signers, one with an alias; the first gets a new key. -/
def walOps : List Op :=
  [.add ⟨['a'], none, 1⟩ (some ['x']), .add ⟨['b'], some ['y'], 2⟩ none, .update ['a'] ⟨['a'], none, 3⟩,
   .update ['c'] ⟨['c'], none, 4⟩, .update ['b'] ⟨['a'], none, 5⟩]

example : keyOf ['a'] walOps none = some 3 ∧ keyOf ['b'] walOps none = some 2 ∧ keyOf ['c'] walOps none = none ∧
    first walOps = some ['a'] ∧ aliasOf ['y'] walOps none = some ['b'] ∧ aliasOf ['x'] walOps none = some ['a'] := by decide

example : (run walOps).signRequest ⟨none, 7, none⟩ none = some ⟨some ['a'], 7, some ⟨3, some ['a'], 7⟩⟩ := by decide

example : (run walOps).listIds = [['x'], ['y']] ∧ (run walOps).getAlias ['b'] = some ['y'] := by decide

example : ((run walOps).update ['a'] ⟨['a'], some ['z'], 6⟩).isSome = true ∧
    ((run walOps).signerById ['a']).map (·.alias) = some (some ['x']) := by decide

/-- An identifier did:sov:b is taken for sov. -/
example : (run (walOps ++ [.add ⟨"did:sov:b".toList, none, 9⟩ none])).signMsg none 7 (some "did:sov:b".toList) none = none := by
  decide

/-- Paths: one inside, one that leaves the directory and comes back, and two that are refused. -/
example : let base := ["home".toList, "keys".toList]
    saveWallet base false ["p".toList, "q".toList, "w".toList]
      = some ⟨base ++ ["p".toList, "q".toList, "w".toList], [base ++ ["p".toList, "q".toList], base ++ ["p".toList]]⟩ ∧
    (saveWallet base false ["..".toList, "keys".toList, "w".toList]).isSome = true ∧
    saveWallet base false ["..".toList, "w".toList] = none ∧
    saveWallet base true ["etc".toList, "w".toList] = none ∧
    saveWallet base false [] = none := by decide

end Verif.Props
