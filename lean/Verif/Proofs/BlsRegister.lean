import Verif.Model.BlsRegister
import Verif.Proofs.Listing
/-!
# Lemmas about the register of BLS keys
-/
namespace Verif.BlsRegister
open Verif Verif.Rlp Verif.Trie Verif.Spec.State Verif.Spec.BlsRegister

theorem parseAll_ok {R : Reader} : ∀ {vs : List Bytes} {ds : List NodeData}, parseAll R vs = .ok ds →
    ∀ d, d ∈ ds ↔ ∃ v ∈ vs, R.parse v = .ok d
  | [], ds, h, d => by
    cases h
    exact ⟨fun h => absurd h List.not_mem_nil, fun ⟨_, h, _⟩ => absurd h List.not_mem_nil⟩
  | v :: vs, ds, h, d => by
    unfold parseAll at h
    split at h
    · next d' ds' h1 h2 =>
      cases h
      have ih := parseAll_ok h2 d
      rw [List.mem_cons]
      constructor
      · rintro (rfl | hm)
        · exact ⟨v, List.mem_cons_self, h1⟩
        · obtain ⟨u, hu, hp⟩ := ih.1 hm
          exact ⟨u, List.mem_cons_of_mem _ hu, hp⟩
      · rintro ⟨u, hu, hp⟩
        rcases List.mem_cons.1 hu with rfl | hu
        · rw [h1] at hp
          exact .inl (Except.ok.inj hp).symm
        · exact .inr (ih.2 ⟨u, hu, hp⟩)
    · cases h
    · cases h

theorem parseAll_total {R : Reader} : ∀ {vs : List Bytes}, (∀ v ∈ vs, ∃ d, R.parse v = .ok d) → ∃ ds, parseAll R vs = .ok ds
  | [], _ => ⟨[], rfl⟩
  | v :: vs, h => by
    obtain ⟨d, hd⟩ := h v List.mem_cons_self
    obtain ⟨ds, hs⟩ := parseAll_total (vs := vs) (fun u hu => h u (List.mem_cons_of_mem _ hu))
    exact ⟨d :: ds, by unfold parseAll; rw [hd, hs]⟩

theorem entry_none {R : Reader} {d : NodeData} (h : entry R d = .ok none) : d.blsKey = none := by
  unfold entry at h
  split at h
  · cases h
  · split at h
    · assumption
    · split at h
      · cases h
      · split at h
        · cases h
        · split at h <;> cases h

theorem entry_some {R : Reader} {d : NodeData} {name : Nat} {k : Option Nat} (h : entry R d = .ok (some (name, k))) :
    d.alias = some name ∧ d.blsKey ≠ none ∧ Usable R d k := by
  unfold entry at h
  split at h
  · cases h
  · next n ha =>
    split at h
    · cases h
    · next b hb =>
      have hne : d.blsKey ≠ none := by rw [hb]; intro h; cases h
      split at h
      · next hp =>
        cases h
        have := Bool.and_eq_true_iff.mp hp
        refine ⟨ha, hne, .unproved ?_ ?_⟩
        · simpa using this.1
        · simpa using this.2
      · next hp =>
        split at h
        · cases h
          exact ⟨ha, hne, .null hb⟩
        · next x =>
          split at h
          · next y hy =>
            cases h
            refine ⟨ha, hne, .key x y hb ?_ hy⟩
            cases hn : R.noProof with
            | true => exact .inl rfl
            | false =>
              right
              intro e
              rw [hn, e] at hp
              exact hp rfl
          · cases h

theorem entry_total {R : Reader} {d : NodeData} (ha : d.alias ≠ none)
    (hk : ∀ b, d.blsKey = some (some b) → ∃ x, R.verKey b = .ok x) : ∃ o, entry R d = .ok o := by
  unfold entry
  split
  · next h => exact absurd h ha
  · split
    · exact ⟨_, rfl⟩
    · next k hb =>
      split
      · exact ⟨_, rfl⟩
      · split
        · exact ⟨_, rfl⟩
        · next b =>
          obtain ⟨x, hx⟩ := hk b hb
          rw [hx]
          exact ⟨_, rfl⟩

/-- What the loop leaves for a name. -/
theorem loadAll_spec {R : Reader} : ∀ (ds : List NodeData) (keys keys' : Dict Nat (Option Nat)),
    loadAll R ds keys = (.ok (), keys') → ∀ name,
      (∃ d ∈ ds, d.alias = some name ∧ d.blsKey ≠ none ∧ Usable R d ((keys'.get? name).join)) ∨
        ((∀ d ∈ ds, d.alias = some name → d.blsKey = none) ∧ keys'.get? name = keys.get? name)
  | [], keys, keys', h, name => by
    cases h
    exact .inr ⟨fun _ h => absurd h List.not_mem_nil, rfl⟩
  | d :: ds, keys, keys', h, name => by
    unfold loadAll at h
    split at h
    · cases h
    · next he =>
      rcases loadAll_spec ds keys keys' h name with ⟨d', h1, h2⟩ | ⟨h1, h2⟩
      · exact .inl ⟨d', List.mem_cons_of_mem _ h1, h2⟩
      · right
        refine ⟨fun d' hd' ha => ?_, h2⟩
        rcases List.mem_cons.1 hd' with rfl | hd'
        · exact entry_none he
        · exact h1 d' hd' ha
    · next n k he =>
      obtain ⟨a1, a2, a3⟩ := entry_some he
      rcases loadAll_spec ds _ keys' h name with ⟨d', h1, h2⟩ | ⟨h1, h2⟩
      · exact .inl ⟨d', List.mem_cons_of_mem _ h1, h2⟩
      · rw [Dict.get?_set] at h2
        by_cases e : name = n
        · subst e
          left
          refine ⟨d, List.mem_cons_self, a1, a2, ?_⟩
          rw [h2]
          simpa using a3
        · right
          refine ⟨fun d' hd' ha => ?_, ?_⟩
          · rcases List.mem_cons.1 hd' with rfl | hd'
            · rw [a1] at ha
              exact absurd (Option.some.inj ha).symm e
            · exact h1 d' hd' ha
          · rw [h2]
            simp [Ne.symm (a := name) (b := n) e]

theorem loadAll_total {R : Reader} : ∀ (ds : List NodeData) (keys : Dict Nat (Option Nat)),
    (∀ d ∈ ds, ∃ o, entry R d = .ok o) → ∃ keys', loadAll R ds keys = (.ok (), keys')
  | [], keys, _ => ⟨keys, rfl⟩
  | d :: ds, keys, h => by
    obtain ⟨o, ho⟩ := h d List.mem_cons_self
    have ih := fun k => loadAll_total ds k (fun d' hd' => h d' (List.mem_cons_of_mem _ hd'))
    unfold loadAll
    rw [ho]
    cases o with
    | none => exact ih keys
    | some p => exact ih _

/-- The keys are those of the content. -/
def Loaded (R : Reader) (m : Content) (keys : Dict Nat (Option Nat)) : Prop :=
  ∀ name, Answer R m name ((keys.get? name).join)

section
variable {H : Bytes → Bytes} (hH : ∀ x, (H x).length = 32)
include hH

/-- The values listed are those of the content. -/
theorem values_of_node {R : Reader} {w : World} (hi : Inv H w) {r : Bytes} {t : T} (ht : Rooted H w.kv r t) {m : Content}
    (hm : Shows t m) {f : Nat} (hf : Deep f m) {root : Item} {h : Bytes}
    (hn : hashToNode H h w = (.ok (t.node H), w) ∧ t.isBlank = false ∨ hashToNode H h w = (.ok blank, w) ∧ root = t.node H) :
    ∃ vs, (∀ v, v ∈ vs ↔ ∃ k, m k = some v) ∧ nodeDataFor H R f root h w = (parseAll R vs, w) := by
  obtain ⟨n, hn1, hn2⟩ := hf
  obtain ⟨d, l, h1, -, h3, h4, h5⟩ := list_node hH hi ht hm (f := f) (by omega)
    (fun b v hb => by have := hn1 b v hb; omega)
  obtain ⟨l', g1, g2, g3⟩ := decodeValues_spec hm.fits l h4 (fun k x hk => by rw [← h5]; exact hk)
  have g4 : ∀ b, l'.get? b = m b := by
    intro b
    rw [g3]
    unfold Dict.has
    rw [h5]
    cases m b <;> rfl
  have hl : allLeaves H f root h w = (.ok l, w) := by
    unfold allLeaves toDict
    rcases hn with ⟨e, hb⟩ | ⟨e, hr⟩
    · rw [bind_ok e]
      have ho : orRoot root (some (t.node H)) = t.node H := by
        obtain ⟨xs, e, hne⟩ := node_ne_blank (H := H) hb
        rw [e]
        cases xs with
        | nil => exact absurd rfl hne
        | cons a l => rfl
      rw [ho, bind_ok h1, h3]
      rfl
    · rw [bind_ok e]
      have ho : orRoot root (some blank) = t.node H := by rw [hr]; rfl
      rw [ho, bind_ok h1, h3]
      rfl
  refine ⟨l'.map Prod.snd, fun v => ?_, ?_⟩
  · rw [List.mem_map]
    constructor
    · rintro ⟨⟨k, v'⟩, hk, rfl⟩
      exact ⟨k, by rw [← g4]; exact Dict.get?_of_mem (by rw [g2]; exact h4) hk⟩
    · rintro ⟨k, hk⟩
      rw [← g4] at hk
      exact ⟨(k, v), Dict.mem_of_get? hk, rfl⟩
  · unfold nodeDataFor
    rw [bind_ok hl, g1]
    rfl

theorem loadKeys_of_node {R : Reader} {w : World} (hi : Inv H w) {r : Bytes} {t : T} (ht : Rooted H w.kv r t) {m : Content}
    (hm : Shows t m) {f : Nat} (hf : Deep f m) {root : Item} {h : Bytes}
    (hn : hashToNode H h w = (.ok (t.node H), w) ∧ t.isBlank = false ∨ hashToNode H h w = (.ok blank, w) ∧ root = t.node H) :
    (loadKeys H R f root h w).2 = w ∧
      ((loadKeys H R f root h w).1.1 = .ok () → Loaded R m (loadKeys H R f root h w).1.2) ∧
      (Readable R m → (loadKeys H R f root h w).1.1 = .ok ()) := by
  obtain ⟨vs, hv, e⟩ := values_of_node (R := R) hH hi ht hm hf hn
  unfold loadKeys
  rw [e]
  cases hp : parseAll R vs with
  | error x =>
    refine ⟨rfl, fun h => (nomatch h), fun hr => ?_⟩
    obtain ⟨ds, hds⟩ := parseAll_total (R := R) (vs := vs) (fun v hv' => by
      obtain ⟨k, hk⟩ := (hv v).1 hv'
      obtain ⟨d, hd, -⟩ := hr k v hk
      exact ⟨d, hd⟩)
    rw [hp] at hds
    cases hds
  | ok ds =>
    have hmem : ∀ d, d ∈ ds ↔ Holds R m d := by
      intro d
      rw [parseAll_ok hp]
      constructor
      · rintro ⟨v, h1, h2⟩
        obtain ⟨k, hk⟩ := (hv v).1 h1
        exact ⟨k, v, hk, h2⟩
      · rintro ⟨k, v, hk, h2⟩
        exact ⟨v, (hv v).2 ⟨k, hk⟩, h2⟩
    refine ⟨rfl, fun h name => ?_, fun hr => ?_⟩
    · have hp : loadAll R ds [] = (.ok (), (loadAll R ds []).2) := Prod.ext h rfl
      rcases loadAll_spec ds [] _ hp name with ⟨d, h1, h2⟩ | ⟨h1, h2⟩
      · exact .inl ⟨d, (hmem d).1 h1, h2⟩
      · right
        refine ⟨fun d hd => h1 d ((hmem d).2 hd), ?_⟩
        show ((loadAll R ds []).2.get? name).join = none
        rw [h2]
        rfl
    · obtain ⟨k', hk'⟩ := loadAll_total (R := R) ds [] (fun d hd => by
        obtain ⟨k, v, hk, hv⟩ := (hmem d).1 hd
        obtain ⟨d', h1, h2, h3⟩ := hr k v hk
        rw [hv] at h1
        cases h1
        exact entry_total h2 h3)
      show (loadAll R ds []).1 = .ok ()
      rw [hk']

/-- A root hash has one content. -/
theorem content_unique {w : World} (hi : Inv H w) (hd : Distinct H w) {r : Bytes} {t t' : T} (ht : Rooted H w.kv r t)
    (ht' : Rooted H w.kv r t') {m m' : Content} (hm : Shows t m) (hm' : Shows t' m') : m = m' := by
  have e := hashToNode_spec hH hi hd ht
  rw [hashToNode_spec hH hi hd ht'] at e
  have e2 : t'.node H = t.node H := Except.ok.inj (Prod.mk.inj e).1
  have := node_inj hH hi hi hd.noColl t t' ht.wf ht'.wf ht.stored ht'.stored e2.symm
  subst this
  exact shows_unique hm hm'

/-- An operation keeps the nodes of the store. -/
theorem step_keep {s s' : Session} {a : Abs} (hs : Sess H s a) {op : Op} (h : s.step H op = .ok s')
    (hd : Distinct H s'.world) (hx : ∀ i h, op = .commitAt i → s.hashes[i]? = some h → isHex h = false) :
    Keep s.world.kv s'.world.kv := by
  have hr := act_spec hH hs op hx (step_index h)
  obtain ⟨root, hd', w1, h1, h2, rfl, h4⟩ := step_ok h
  rw [h1] at hr
  have m2 := (mono_headHash (H := H) s'.root).le w1
  rw [h2] at m2
  obtain ⟨hk, hh⟩ := hr.2 (hd.mono m2)
  obtain ⟨t, ht1, ht2, ht3⟩ := hh.cur
  have h5 := headHash_spec hh.inv ht2
  rw [← ht1, h2] at h5
  rw [(Prod.mk.inj h5).2]
  exact hk

/-- What the register holds. -/
def RegOk (H : Bytes → Bytes) (R : Reader) (s : Session) (g : Register) : Prop :=
  ∀ r, g.root = some r → r ≠ blankRoot H → ∃ t m, Rooted H s.world.kv r t ∧ Shows t m ∧ Loaded R m g.keys

/-- A lookup of a root hash that has a tree. -/
theorem getKey_spec {R : Reader} {s : Session} {a : Abs} (hs : Sess H s a) (hd : Distinct H s.world) {g : Register}
    (hg : RegOk H R s g) {rh : Option Bytes} {r : Bytes} (hr : orCommitted rh s.world = (.ok r, s.world)) {t : T}
    (ht : Rooted H s.world.kv r t) {m : Content} (hm : Shows t m) {f : Nat} (hf : Deep f m) (hf' : Deep f a.current)
    (name : Nat) :
    ∃ x g', getKey H R f g s.root rh name s.world = (x, g', s.world) ∧
      (∀ o, x = .ok o → RegOk H R s g' ∧ (r ≠ blankRoot H → Answer R m name o)) ∧
      (r ≠ blankRoot H → Readable R m → ∃ o, x = .ok o) := by
  unfold getKey
  rw [hr]
  dsimp only
  by_cases hc : g.root ≠ some r
  · rw [if_pos hc]
    by_cases hb : r = blankRoot H
    · obtain ⟨tc, ec, htc, hmc⟩ := hs.here.cur
      have e1 : hashToNode H r s.world = (.ok blank, s.world) := by
        unfold hashToNode
        rw [if_pos hb]
        rfl
      obtain ⟨a1, a2, a3⟩ := loadKeys_of_node (R := R) hH hs.here.inv htc hmc hf' (.inr ⟨e1, ec⟩)
      revert a1 a2 a3
      generalize loadKeys H R f s.root r s.world = L
      obtain ⟨⟨x, k⟩, w⟩ := L
      intro a1 _ _
      dsimp only at a1
      subst a1
      cases x with
      | error e => exact ⟨_, _, rfl, fun o h => (nomatch h), fun h => absurd hb h⟩
      | ok u =>
        refine ⟨_, _, rfl, fun o _ => ⟨fun r' h' hne => ?_, fun h => absurd hb h⟩, fun h => absurd hb h⟩
        have h' : some r = some r' := h'
        rw [← Option.some.inj h'] at hne
        exact absurd hb hne
    · have hbl : t.isBlank = false := by
        cases hbl : t.isBlank with
        | false => rfl
        | true =>
          rw [T.isBlank_iff.1 hbl] at ht
          exact absurd ht.hash hb
      obtain ⟨a1, a2, a3⟩ := loadKeys_of_node (R := R) (root := s.root) hH hs.here.inv ht hm hf
        (.inl ⟨hashToNode_spec hH hs.here.inv hd ht, hbl⟩)
      revert a1 a2 a3
      generalize loadKeys H R f s.root r s.world = L
      obtain ⟨⟨x, k⟩, w⟩ := L
      intro a1 a2 a3
      dsimp only at a1 a2 a3
      subst a1
      cases x with
      | error e => exact ⟨_, _, rfl, fun o h => (nomatch h), fun _ h => nomatch a3 h⟩
      | ok u =>
        refine ⟨_, _, rfl, fun o h => ⟨fun r' h' hne => ?_, fun _ => ?_⟩, fun _ _ => ⟨_, rfl⟩⟩
        · have h' : some r = some r' := h'
          cases h'
          exact ⟨t, m, ht, hm, a2 rfl⟩
        · cases h
          exact a2 rfl name
  · rw [if_neg hc]
    have hc' : g.root = some r := Decidable.not_not.1 hc
    refine ⟨_, _, rfl, fun o h => ⟨hg, fun hb => ?_⟩, fun _ _ => ⟨_, rfl⟩⟩
    cases h
    obtain ⟨t', m', ht', hm', hl⟩ := hg r hc' hb
    rw [content_unique hH hs.here.inv hd ht ht' hm hm']
    exact hl name

omit hH in
theorem noHex_mono {s s' : Session} {ops ops' : List Op} (h : NoHex s' (ops ++ ops')) (hp : s.hashes <+: s'.hashes) :
    NoHex s ops := by
  intro i hi x hx
  obtain ⟨l, hl⟩ := hp
  refine h i (List.mem_append_left _ hi) x ?_
  rw [← hl, List.getElem?_append_left (List.getElem?_eq_some_iff.1 hx).1]
  exact hx

theorem noted_truthy {s : Session} {a : Abs} (hs : Sess H s a) {i : Nat} {r : Bytes} (hi : s.hashes[i]? = some r)
    {m : Content} (hm : a.past[i]? = some m) : orCommitted (some r) s.world = (.ok r, s.world) := by
  obtain ⟨t, ht, -⟩ := hs.past.get i r m hi hm
  have h : r.length = 32 := by rw [ht.hash]; exact hH _
  cases r with
  | nil => cases h
  | cons b l => rfl

omit hH in
theorem committed_root {s : Session} {a : Abs} (hs : Sess H s a) :
    ∃ r t, orCommitted none s.world = (.ok r, s.world) ∧ Rooted H s.world.kv r t ∧ Shows t a.committed := by
  obtain ⟨r, t, h1, h2, h3⟩ := hs.here.com
  exact ⟨r, t, by simp [orCommitted, committedHeadHash, getNode, h1], h2, h3⟩

/-- The register in a history. -/
theorem history_ok {R : Reader} {f : Nat} {ops : List Op} {s : Session} {g : Register} (p : History H R f ops s g) :
    Distinct H s.world → NoHex s ops → Sess H s (Abs.run ops) ∧ RegOk H R s g := by
  have stepCase : ∀ {ops : List Op} {s s' : Session} {g g' : Register} (o : Op), s.step H o = .ok s' →
      (Distinct H s.world → NoHex s ops → Sess H s (Abs.run ops) ∧ RegOk H R s g) → (g' = g ∨ g' = {}) →
      Distinct H s'.world → NoHex s' (ops ++ [o]) → Sess H s' (Abs.run (ops ++ [o])) ∧ RegOk H R s' g' := by
    intro ops s s' g g' o h ih hg hd hx
    obtain ⟨_, hd', _, _, _, _, h4⟩ := step_ok h
    have hp : s.hashes <+: s'.hashes := ⟨[hd'], h4.symm⟩
    obtain ⟨hs, hr⟩ := ih (hd.mono (fun _ hx => step_mono h hx)) (noHex_mono hx hp)
    have hx' : ∀ i h, o = .commitAt i → s.hashes[i]? = some h → isHex h = false := by
      rintro i x rfl hi
      refine hx i (List.mem_append_right _ List.mem_cons_self) x ?_
      obtain ⟨l, hl⟩ := hp
      rw [← hl, List.getElem?_append_left (List.getElem?_eq_some_iff.1 hi).1]
      exact hi
    refine ⟨?_, ?_⟩
    · have := sess_step hH hs h hd hx'
      unfold Abs.run at this ⊢
      rw [List.foldl_append]
      exact this
    · have hk := step_keep hH hs h hd hx'
      rcases hg with rfl | rfl
      · intro r h1 h2
        obtain ⟨t, m, h3, h4, h5⟩ := hr r h1 h2
        exact ⟨t, m, h3.keep hH hk, h4, h5⟩
      · intro r h1
        cases h1
  induction p with
  | start h =>
    intro _ _
    exact ⟨sess_init hH h, fun r h => nomatch h⟩
  | op o _ h ih => exact stepCase o h ih (.inl rfl)
  | restart _ h ih => exact stepCase .reopen h ih (.inr rfl)
  | look i r m name _ hi hm deep here h ih =>
    intro hd hx
    obtain ⟨hs, hr⟩ := ih hd hx
    obtain ⟨t, ht, hsh⟩ := hs.past.get i r m hi hm
    obtain ⟨x, g1, e1, e2, -⟩ := getKey_spec hH hs hd hr (noted_truthy hH hs hi hm) ht hsh deep here name
    rw [h] at e1
    cases e1
    exact ⟨hs, (e2 _ rfl).1⟩
  | lookCommitted name _ deep here h ih =>
    intro hd hx
    obtain ⟨hs, hr⟩ := ih hd hx
    obtain ⟨r, t, h0, ht, hsh⟩ := committed_root hs
    obtain ⟨x, g1, e1, e2, -⟩ := getKey_spec hH hs hd hr h0 ht hsh deep here name
    rw [h] at e1
    cases e1
    exact ⟨hs, (e2 _ rfl).1⟩

end

end Verif.BlsRegister
