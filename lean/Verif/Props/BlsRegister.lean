import Verif.Proofs.BlsRegister
import Verif.Props.Listing
/-!
# C104: the register of BLS keys

Histories, hashes and collisions are as for C11; `NoHex` and `Deep` as for C103.
-/
namespace Verif.Props
open Verif.Rlp Verif.Trie Verif.Spec.State Verif.Spec.BlsRegister Verif.BlsRegister

variable {H : Bytes → Bytes} (hH : ∀ x, (H x).length = 32)
include hH

/-- **C104**, except for the root hash of the empty state. After every history of the pool state with lookups in it, a
lookup by a root hash noted on the way answers from the pool state of that moment, whatever was looked up before. It
fails only if that pool state has data that cannot be read, and leaves the store as it is. -/
theorem C104_key_partial {R : Reader} {f : Nat} {ops : List Op} {s : Session} {g : Register} (p : History H R f ops s g)
    (hx : NoHex s ops) (i : Nat) (r : Bytes) (hi : s.hashes[i]? = some r) (m : Content)
    (hm : (Abs.run ops).past[i]? = some m) (deep : Deep f m) (here : Deep f (Abs.run ops).current)
    (hr : r ≠ blankRoot H) (name : Nat) :
    (∃ x g', getKey H R f g s.root (some r) name s.world = (x, g', s.world) ∧ (∀ o, x = .ok o → Answer R m name o) ∧
      (Readable R m → ∃ o, x = .ok o)) ∨ Spec.Collision H s.hashed s.hashed := by
  by_cases hc : Spec.Collision H s.hashed s.hashed
  · exact .inr hc
  · left
    have hd := distinct_of_no_collision hc
    obtain ⟨hs, hg⟩ := history_ok hH p hd hx
    obtain ⟨t, ht, hsh⟩ := hs.past.get i r m hi hm
    obtain ⟨x, g', h1, h2, h3⟩ := getKey_spec hH hs hd hg (noted_truthy hH hs hi hm) ht hsh deep here name
    exact ⟨x, g', h1, fun o ho => (h2 o ho).2 hr, h3 hr⟩

/-- **C104**, the same for a lookup without a root hash: it answers from the committed pool state, if that is not
empty. -/
theorem C104_committed_partial {R : Reader} {f : Nat} {ops : List Op} {s : Session} {g : Register}
    (p : History H R f ops s g) (hx : NoHex s ops) (deep : Deep f (Abs.run ops).committed)
    (here : Deep f (Abs.run ops).current) (hne : ∃ k, (Abs.run ops).committed k ≠ none) (name : Nat) :
    (∃ x g', getKey H R f g s.root none name s.world = (x, g', s.world) ∧
      (∀ o, x = .ok o → Answer R (Abs.run ops).committed name o) ∧
      (Readable R (Abs.run ops).committed → ∃ o, x = .ok o)) ∨ Spec.Collision H s.hashed s.hashed := by
  by_cases hc : Spec.Collision H s.hashed s.hashed
  · exact .inr hc
  · left
    have hd := distinct_of_no_collision hc
    obtain ⟨hs, hg⟩ := history_ok hH p hd hx
    obtain ⟨r, t, h0, ht, hsh⟩ := committed_root hs
    have hr : r ≠ blankRoot H := by
      intro e
      have : Rooted H s.world.kv r .blank := e ▸ rooted_blank _
      have := content_unique hH hs.here.inv hd ht this hsh shows_blank
      obtain ⟨k, hk⟩ := hne
      rw [this] at hk
      exact hk rfl
    obtain ⟨x, g', h1, h2, h3⟩ := getKey_spec hH hs hd hg h0 ht hsh deep here name
    exact ⟨x, g', h1, fun o ho => (h2 o ho).2 hr, h3 hr⟩

/-- **C104**, where the code falls short. A lookup by the root hash of the empty state answers from the current pool
state, with what is not committed; and from then on the register gives the same answers for it, whatever the pool state
has become, until another root hash is looked up. -/
theorem C104_blank {R : Reader} {f : Nat} {ops : List Op} {s : Session} {g : Register} (p : History H R f ops s g)
    (hx : NoHex s ops) (hg : g.root ≠ some (blankRoot H)) (here : Deep f (Abs.run ops).current)
    (read : Readable R (Abs.run ops).current) (name : Nat) :
    (∃ o g', getKey H R f g s.root (some (blankRoot H)) name s.world = (.ok o, g', s.world) ∧
      Answer R (Abs.run ops).current name o ∧
      ∀ (s' : Session) (name' : Nat), ∃ o', getKey H R f g' s'.root (some (blankRoot H)) name' s'.world = (.ok o', g', s'.world) ∧
        Answer R (Abs.run ops).current name' o') ∨ Spec.Collision H s.hashed s.hashed := by
  by_cases hc : Spec.Collision H s.hashed s.hashed
  · exact .inr hc
  · left
    have hd := distinct_of_no_collision hc
    obtain ⟨hs, -⟩ := history_ok hH p hd hx
    obtain ⟨tc, ec, htc, hmc⟩ := hs.here.cur
    have e1 : hashToNode H (blankRoot H) s.world = (.ok blank, s.world) := by
      unfold hashToNode
      rw [if_pos rfl]
      rfl
    have e2 : ∀ w, orCommitted (some (blankRoot H)) w = (.ok (blankRoot H), w) := by
      intro w
      have hl : (blankRoot H).length = 32 := hH _
      revert hl
      generalize blankRoot H = b
      cases b with
      | nil => intro h; cases h
      | cons x l => intro _; rfl
    obtain ⟨a1, a2, a3⟩ := loadKeys_of_node (R := R) hH hs.here.inv htc hmc here (.inr ⟨e1, ec⟩)
    have a4 := a3 read
    have a5 := a2 a4
    revert a1 a4 a5
    unfold getKey
    simp only [e2]
    rw [if_pos hg]
    generalize loadKeys H R f s.root (blankRoot H) s.world = L
    obtain ⟨⟨x, k⟩, w⟩ := L
    intro a1 a4 a5
    dsimp only at a1 a4 a5
    subst a1
    subst a4
    refine ⟨_, _, rfl, a5 name, fun s' name' => ⟨_, ?_, a5 name'⟩⟩
    rw [if_neg (fun h => h rfl)]

omit hH

/-- **C104**, where the code falls short. A lookup by a root hash that the store does not have raises; the register then
holds no keys for it, and every later lookup by the same root hash answers that the node has no key, without an error,
even if the pool state with this root hash has been reached since. -/
theorem C104_unknown (R : Reader) (f : Nat) (g : Register) (s : Session) (r : Bytes) (name : Nat)
    (hr : s.world.kv.get? r = none) (h1 : r ≠ []) (h2 : r ≠ blankRoot H) (hg : g.root ≠ some r) :
    getKey H R f g s.root (some r) name s.world = (.error .key, ⟨[], some r⟩, s.world) ∧
      ∀ (s' : Session) (name' : Nat), getKey H R f ⟨[], some r⟩ s'.root (some r) name' s'.world =
        (.ok none, ⟨[], some r⟩, s'.world) := by
  have e2 : ∀ w, orCommitted (some r) w = (.ok r, w) := by
    intro w
    cases r with
    | nil => exact absurd rfl h1
    | cons x l => rfl
  have e3 : nodeDataFor H R f s.root r s.world = (.error .key, s.world) := by
    have : hashToNode H r s.world = (.error .key, s.world) := by
      unfold hashToNode
      rw [if_neg h2]
      have hn : getNode r s.world = (.error .key, s.world) := by unfold getNode; rw [hr]
      cases r with
      | nil => exact absurd rfl h1
      | cons x l => exact bind_error hn
    unfold nodeDataFor allLeaves
    exact bind_error (bind_error this)
  refine ⟨?_, fun s' name' => ?_⟩
  · unfold getKey loadKeys
    simp only [e2, e3]
    rw [if_pos hg]
  · unfold getKey
    simp only [e2]
    rw [if_neg (fun h => h rfl)]
    rfl

/-- If no two nodes have the same alias, there is one right answer. -/
theorem C104_one_answer {R : Reader} {m : Content} (h : OneEach R m) {name : Nat} {o o' : Option Nat}
    (a : Answer R m name o) (a' : Answer R m name o') : o = o' := by
  rcases a with ⟨d, h1, h2, h3, h4⟩ | ⟨h1, rfl⟩ <;> rcases a' with ⟨d', k1, k2, k3, k4⟩ | ⟨k1, rfl⟩
  · have e := h d d' h1 k1 (by rw [h2, k2])
    subst e
    cases h4 with
    | unproved p q =>
      cases k4 with
      | key _ _ _ p' _ =>
        rcases p' with p' | p'
        · rw [p] at p'; cases p'
        · exact absurd q p'
      | _ => rfl
    | null e =>
      cases k4 with
      | key _ _ e' _ _ => rw [e] at e'; cases e'
      | _ => rfl
    | key b x e p hx =>
      cases k4 with
      | unproved p' q =>
        rcases p with p | p
        · rw [p'] at p; cases p
        · exact absurd q p
      | null e' => rw [e] at e'; cases e'
      | key b' x' e' _ hx' =>
        rw [e] at e'
        cases e'
        rw [hx] at hx'
        cases hx'
        rfl
  · exact absurd (k1 d h1 h2) h3
  · exact absurd (h1 d' k1 k2) k3
  · rfl

/-! ## Cases that meet the hypotheses -/

/-- Data are the alias, the key and the proof, 0 for none; the key 255 cannot be read. -/
def sampleReader : Reader where
  parse
    | [a, k, p] => .ok ⟨some a.toNat, if k = 0 then none else some (some [k]), if p = 0 then none else some [p]⟩
    | _ => .error .type
  verKey
    | [255] => .error .type
    | [b] => .ok b.toNat
    | _ => .error .index
  noProof := false

/-- Two nodes, one without a proof; the second then proves its key, a third comes, and the first changes its key. -/
def samplePool : List Op :=
  [.set [1] [11, 50, 1], .set [2] [12, 60, 0], .commit, .set [2] [12, 60, 1], .set [3] [13, 0, 0], .set [1] [11, 51, 1]]

/-- The answers for the names 11, 12 and 13, with the register passed on from one to the next. -/
def sampleAnswers (H : Bytes → Bytes) (s : Session) (g : Register) (r : Option Bytes) :
    List (Option (Option Nat)) × Register :=
  [11, 12, 13].foldl (fun p n =>
    let x := getKey H sampleReader 5 p.2 s.root r n s.world
    (p.1 ++ [x.1.toOption], x.2.1)) ([], g)

/-- The answers for five root hashes of one history, one after the other; those for the root hash of the empty state are
those of the current pool state. -/
def sampleRegister : Bool :=
  match Session.run trieHash samplePool with
  | .ok s =>
    let a1 := sampleAnswers trieHash s {} s.hashes[2]?
    let a2 := sampleAnswers trieHash s a1.2 s.hashes[6]?
    let a3 := sampleAnswers trieHash s a2.2 none
    let a4 := sampleAnswers trieHash s a3.2 s.hashes[4]?
    let a5 := sampleAnswers trieHash s a4.2 s.hashes[0]?
    decide (¬ Spec.Collision trieHash s.hashed s.hashed) && s.hashes.all (fun h => !isHex h) &&
    decide (a1.1 = [some (some 50), some none, some none]) &&
    decide (a2.1 = [some (some 51), some (some 60), some none]) &&
    decide (a3.1 = [some (some 50), some none, some none]) &&
    decide (a4.1 = [some (some 50), some (some 60), some none]) &&
    decide (a5.1 = [some (some 51), some (some 60), some none]) &&
    decide (s.hashes[0]? = some (blankRoot trieHash)) && decide (s.hashes[2]? ≠ some (blankRoot trieHash)) &&
    decide (s.world.kv.get? [1, 2, 3] = none)
  | .error _ => false

example : sampleRegister = true := by decide +kernel

theorem sampleRegister_true : sampleRegister = true := by decide +kernel

/-- A history without lookups is one. -/
theorem history_of_run {R : Reader} {f : Nat} {ops : List Op} {s : Session} (h : Session.run H ops = .ok s) :
    History H R f ops s {} := by
  have go : ∀ (ops pre : List Op) (s s' : Session), History H R f pre s {} → Session.runFrom H (.ok s) ops = .ok s' →
      History H R f (pre ++ ops) s' {} := by
    intro ops
    induction ops with
    | nil => intro pre s s' hp h; cases h; rw [List.append_nil]; exact hp
    | cons o ops ih =>
      intro pre s s' hp h
      rw [Session.runFrom] at h
      cases e : s.step H o with
      | error x => rw [e] at h; cases ops <;> cases h
      | ok s1 =>
        rw [e] at h
        rw [show pre ++ o :: ops = (pre ++ [o]) ++ ops by simp]
        exact ih _ s1 s' (.op o hp e) h
  unfold Session.run at h
  cases e : Session.init H with
  | error x => rw [e] at h; cases ops <;> cases h
  | ok s0 =>
    rw [e] at h
    exact go ops [] s0 s (.start e) h

/-- A history with a lookup in it. -/
example : ∃ s g, History trieHash sampleReader 5 samplePool s g ∧ g.root ≠ none := by
  have h := sampleRegister_true
  unfold sampleRegister at h
  cases e : Session.run trieHash samplePool with
  | error x => rw [e] at h; cases h
  | ok s =>
    rw [e] at h
    simp only [Bool.and_eq_true, decide_eq_true_eq] at h
    obtain ⟨⟨⟨⟨⟨⟨⟨⟨⟨h1, h2⟩, -⟩, -⟩, -⟩, -⟩, -⟩, -⟩, h3⟩, -⟩ := h
    have hp := history_of_run (R := sampleReader) (f := 5) e
    have hx : NoHex s samplePool := by
      intro i hi
      simp [samplePool] at hi
    have w1 : (Abs.run samplePool).committed.Within 1 := by
      intro k v hk
      simp only [samplePool, Abs.run, List.foldl, Abs.step, Abs.apply, Abs.init, Content.put] at hk
      repeat (split at hk; · (next e => subst e; decide))
      cases hk
    have w2 : (Abs.run samplePool).current.Within 1 := by
      intro k v hk
      simp only [samplePool, Abs.run, List.foldl, Abs.step, Abs.apply, Abs.init, Content.put] at hk
      repeat (split at hk; · (next e => subst e; decide))
      cases hk
    have rd : Readable sampleReader (Abs.run samplePool).committed := by
      intro k v hk
      simp only [samplePool, Abs.run, List.foldl, Abs.step, Abs.apply, Abs.init, Content.put] at hk
      repeat (split at hk; · (cases hk; exact ⟨_, rfl, by decide, fun b hb => by cases hb; exact ⟨_, rfl⟩⟩))
      cases hk
    rcases C104_committed_partial trieHash_length hp hx ⟨1, w1, by decide⟩ ⟨1, w2, by decide⟩ ⟨[1], by decide⟩ 11 with
      ⟨x, g', a1, -, a3⟩ | hc
    · obtain ⟨o, rfl⟩ := a3 rd
      refine ⟨s, g', .lookCommitted 11 hp ⟨1, w1, by decide⟩ ⟨1, w2, by decide⟩ a1, ?_⟩
      intro hg
      unfold getKey at a1
      split at a1
      · cases a1
      · rw [if_pos (fun h => nomatch h)] at a1
        split at a1 <;> cases a1
        cases hg
    · exact absurd hc h1

end Verif.Props
