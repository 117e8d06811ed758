import Verif.Spec.NymTxn
import Verif.Proofs.Count
/-!
# The limit of stewards (C51), and what NYM transactions change (C74)
-/
namespace Verif.Props
open Verif Verif.NymTxn Verif.Spec.NymTxn

theorem steward_ascii : steward = ascii "2" := rfl

/-- 1 if the role is steward. -/
def isOne (o : Option Nym) : Nat := if roleOf o = true then 1 else 0

theorem stewards_cons (e : Bytes × Nym) (d : Domain) : stewards (e :: d) = isOne (some e.2) + stewards d := by
  unfold stewards isOne roleOf
  rw [List.filter_cons]
  by_cases h : e.2.role = some steward
  · rw [steward_ascii] at h; simp [h, steward_ascii]; omega
  · rw [steward_ascii] at h; simp [h, steward_ascii]

theorem stewards_set (d : Domain) (k : Bytes) (v : Nym) :
    stewards (d.set k v) + isOne (d.get? k) = stewards d + isOne (some v) := by
  induction d with
  | nil =>
    have h0 : stewards ([] : Domain) = 0 := rfl
    have h1 : isOne (none : Option Nym) = 0 := rfl
    show stewards ((k, v) :: []) + isOne none = _
    rw [stewards_cons, h0, h1]; simp only; omega
  | cons e d ih =>
    obtain ⟨k', v'⟩ := e
    unfold Dict.set
    rw [Dict.get?_cons]
    by_cases h : k' = k
    · simp only [h, if_true, stewards_cons]; omega
    · simp only [h, if_false, stewards_cons]; omega

theorem countStep_eq (c : Int) (old : Option Nym) (new : Nym) :
    countStep c old new = c - isOne old + isOne (some new) := by
  unfold countStep isOne
  cases roleOf old <;> cases roleOf (some new) <;> simp

/-- The count and the state agree. -/
def Agree (s : Domain × Int) : Prop := s.2 = stewards s.1

theorem agree_update (H : Bytes → Bytes) {s : Domain × Int} (h : Agree s) (r : Req) : Agree (update H s r) := by
  unfold Agree at h ⊢
  unfold update
  simp only [countStep_eq]
  have := stewards_set s.1 (H r.dest) (newNym (details H s.1 r.dest) r)
  unfold details at this ⊢
  omega

theorem agree_applyReq (H : Bytes → Bytes) (limit : Int) {s : Domain × Int} (h : Agree s) (r : Req) :
    Agree (applyReq H limit s r) := by
  unfold applyReq
  split
  · exact agree_update H h r
  · exact h

theorem agree_fold (H : Bytes → Bytes) (limit : Int) (rs : List Req) {s : Domain × Int} (h : Agree s) :
    Agree (rs.foldl (applyReq H limit) s) := by
  induction rs generalizing s with
  | nil => exact h
  | cons r rs ih => exact ih (agree_applyReq H limit h r)

theorem head_commit (n : Node) :
    ({ n with committed := n.heads.getLastD n.committed, heads := n.heads.dropLast } : Node).head = n.head := by
  unfold Node.head
  cases n.heads with
  | nil => rfl
  | cons a l =>
    cases l with
    | nil => rfl
    | cons b l => rfl

theorem nym_run_snoc (H : Bytes → Bytes) (limit : Int) (evs : List Ev) (e : Ev) :
    run H limit (evs ++ [e]) = step H limit (run H limit evs) e := by
  unfold run; rw [List.foldl_append]; rfl

theorem undisturbed_prefix {H : Bytes → Bytes} {limit : Int} {evs : List Ev} {e : Ev} (h : Undisturbed H limit (evs ++ [e])) :
    Undisturbed H limit evs := by
  intro pre a post he
  exact h pre a (post ++ [e]) (by rw [he]; simp)

/-- The count is the number of stewards in the uncommitted state. -/
theorem steward_count_partial (H : Bytes → Bytes) (limit : Int) (evs : List Ev) (hu : Undisturbed H limit evs) :
    (run H limit evs).count = stewards (run H limit evs).head := by
  induction evs using snoc_induction with
  | nil => rfl
  | snoc evs e ih =>
    have ih := ih (undisturbed_prefix hu)
    have he := hu evs e [] rfl
    rw [nym_run_snoc]
    cases e with
    | batch rs =>
      have := agree_fold H limit rs (s := ((run H limit evs).head, (run H limit evs).count)) ih
      exact this
    | reject =>
      rw [he.1 rfl]; exact ih
    | commit =>
      show (run H limit evs).count = _
      rw [ih]; exact congrArg _ (congrArg _ (head_commit _).symm)
    | restore r =>
      unfold step
      simp only
      split
      · next h1 =>
        have h2 : (run H limit evs).head = (run H limit evs).committed := by unfold Node.head; rw [h1]; rfl
        have h3 := agree_update H (s := ((run H limit evs).committed, (run H limit evs).count)) (by rw [h2] at ih; exact ih) r
        show (update H ((run H limit evs).committed, (run H limit evs).count) r).2 = _
        rw [h3]
        unfold Node.head
        simp only [h1, List.headD_nil]
      · exact ih
    | restart =>
      have := he.2 rfl
      show (0 : Int) = _
      unfold Node.head step
      simp only [List.headD_nil]
      omega

/-- **C51**, in part, for undisturbed histories: a request that makes a steward passes
only while there are fewer stewards than the limit, and if a steward sends it, it does
pass then. What is missing is shown by `steward_limit_after_restart` and
`steward_limit_after_reject`. -/
theorem steward_limit_partial (H : Bytes → Bytes) (limit : Int) (evs : List Ev) (hu : Undisturbed H limit evs)
    (r : Req) (hr : MakesSteward r) :
    validate H limit (run H limit evs).count (run H limit evs).head r = none ↔
      (stewards (run H limit evs).head : Int) < limit ∧ isSteward H (run H limit evs).head r.sender = true := by
  rw [steward_count_partial H limit evs hu]
  unfold validate exceeded
  unfold MakesSteward at hr
  rw [hr]
  by_cases h : limit ≤ stewards (run H limit evs).head
  · simp [h, steward_ascii]; omega
  · simp [h, steward_ascii]; omega

/-- **C51**, in part: two nodes with undisturbed histories and the same state decide
alike. -/
theorem steward_limit_agree_partial (H : Bytes → Bytes) (limit : Int) (evs evs' : List Ev) (hu : Undisturbed H limit evs)
    (hu' : Undisturbed H limit evs') (hs : (run H limit evs).head = (run H limit evs').head) (r : Req) :
    validate H limit (run H limit evs).count (run H limit evs).head r =
      validate H limit (run H limit evs').count (run H limit evs').head r := by
  rw [steward_count_partial H limit evs hu, steward_count_partial H limit evs' hu', hs]

/-- The limit holds: for undisturbed histories in which the restored transactions stay
within it, there are never more stewards than the limit. -/
theorem steward_limit_kept_partial (H : Bytes → Bytes) (limit : Nat) (evs : List Ev) (hu : Undisturbed H limit evs)
    (hr : ∀ pre r post, evs = pre ++ .restore r :: post →
      stewards (step H limit (run H limit pre) (.restore r)).head ≤ limit) :
    stewards (run H limit evs).head ≤ limit := by
  induction evs using snoc_induction with
  | nil => exact Nat.zero_le _
  | snoc evs e ih =>
    have ih := ih (undisturbed_prefix hu) (fun pre r post h => hr pre r (post ++ [e]) (by rw [h]; simp))
    have he := hu evs e [] rfl
    have hc := steward_count_partial H limit evs (undisturbed_prefix hu)
    rw [nym_run_snoc]
    cases e with
    | batch rs =>
      show stewards (rs.foldl (applyReq H limit) ((run H limit evs).head, (run H limit evs).count)).1 ≤ limit
      suffices ∀ (s : Domain × Int), Agree s → stewards s.1 ≤ limit → stewards (rs.foldl (applyReq H limit) s).1 ≤ limit from
        this _ hc ih
      clear hu hr ih he hc
      induction rs with
      | nil => intro s _ h; exact h
      | cons r rs ih =>
        intro s ha hs
        refine ih _ (agree_applyReq H limit ha r) ?_
        unfold applyReq
        split
        · next hv =>
          unfold update
          simp only
          have h1 := stewards_set s.1 (H r.dest) (newNym (details H s.1 r.dest) r)
          have h2 : isOne (some (newNym (details H s.1 r.dest) r)) = 1 → r.role.join = some steward := by
            unfold isOne roleOf newNym
            intro h
            cases hd : details H s.1 r.dest <;> simp only [hd] at h <;> split at h <;> simp_all
          have h3 : isOne (some (newNym (details H s.1 r.dest) r)) ≤ 1 := by unfold isOne; split <;> simp
          by_cases h4 : isOne (some (newNym (details H s.1 r.dest) r)) = 1
          · have h5 := h2 h4
            unfold validate exceeded at hv
            unfold Agree at ha
            rw [ha] at hv
            simp only [h5, true_and] at hv
            split at hv
            · cases hv
            · next h6 => simp at h6; omega
          · omega
        · exact hs
    | reject => rw [he.1 rfl]; exact ih
    | commit =>
      have : (step H limit (run H limit evs) .commit).head = (run H limit evs).head := head_commit _
      rw [this]; exact ih
    | restore r => exact hr evs r [] rfl
    | restart =>
      have := he.2 rfl
      show stewards (run H limit evs).committed ≤ limit
      omega

/-- Only stewards have NYM requests accepted. -/
theorem nym_by_stewards (H : Bytes → Bytes) (limit count : Int) (d : Domain) (r : Req)
    (h : validate H limit count d r = none) :
    ∃ n, d.get? (H r.sender) = some n ∧ n.role = some (ascii "2") := by
  unfold validate at h
  split at h
  · cases h
  · split at h
    · cases h
    · next h2 =>
      simp only [Bool.not_eq_true', Bool.not_eq_false] at h2
      unfold isSteward details at h2
      cases hg : d.get? (H r.sender) with
      | none => rw [hg] at h2; cases h2
      | some n => rw [hg] at h2; exact ⟨n, rfl, by rw [← steward_ascii]; exact of_decide_eq_true h2⟩

/-- **C74**, in part: a transaction changes no other identity, keeps who created an
identity, and changes its key only if it gives one. What is missing is the role, see
`nym_update_clears_role`. -/
theorem nym_update_partial (H : Bytes → Bytes) (s : Domain × Int) (r : Req) (old : Nym) (h : s.1.get? (H r.dest) = some old) :
    (∀ k, k ≠ H r.dest → (update H s r).1.get? k = s.1.get? k) ∧
    ∃ new, (update H s r).1.get? (H r.dest) = some new ∧ new.identifier = old.identifier ∧
      (r.verkey = none → new.verkey = old.verkey) ∧ (∀ v, r.verkey = some v → new.verkey = v) ∧
      (∀ v, r.role = some v → new.role = v) := by
  unfold update details
  simp only [Dict.get?_set]
  refine ⟨fun k hk => if_neg (fun e => hk e.symm), _, if_pos trivial, ?_⟩
  rw [h]
  unfold newNym
  refine ⟨rfl, ?_, ?_, ?_⟩
  · intro h1; simp [h1]
  · intro v h1; simp [h1]
  · intro v h1; simp [h1]

/-- **C74**, negation for roles: a transaction that gives no role clears it, for every
identity. -/
theorem nym_update_clears_role (H : Bytes → Bytes) (s : Domain × Int) (r : Req) (h : r.role = none) :
    ((update H s r).1.get? (H r.dest)).map (·.role) = some none := by
  unfold update newNym
  simp only [Dict.get?_set, if_true, h]
  cases details H s.1 r.dest <;> rfl

/-- A new identity gets what the transaction gives. -/
theorem nym_created (H : Bytes → Bytes) (s : Domain × Int) (r : Req) (h : s.1.get? (H r.dest) = none) :
    (update H s r).1.get? (H r.dest) = some ⟨r.sender, r.role.join, r.verkey.join, r.seqNo, r.txnTime⟩ := by
  unfold update newNym details
  simp only [Dict.get?_set, if_true, h]

/-! ## Concrete histories -/

/-- A genesis steward. -/
def nymGenesis : Req := { sender := [1], dest := [1], role := some (some (ascii "2")) }
/-- The first steward makes another one. -/
def nymAdd (i : UInt8) : Req := { sender := [1], dest := [i], role := some (some (ascii "2")) }

/-- A reverted batch without stewards, and two additions of which the limit allows
one. -/
def nymHistory : List Ev :=
  [.restart, .restore nymGenesis, .batch [{ sender := [1], dest := [5] }], .reject, .batch [nymAdd 2, nymAdd 3], .commit,
   .batch [{ sender := [2], dest := [5], verkey := some (some [7]) }]]

theorem nymHistory_undisturbed : Undisturbed id 2 nymHistory := by
  intro pre e post he
  have : pre.length < 7 := by
    have := congrArg List.length he
    simp [nymHistory] at this; omega
  have hp : pre = nymHistory.take pre.length := by rw [he]; simp
  have hx : nymHistory[pre.length]? = some e := by rw [he]; simp
  have key : ∀ n, n < 7 → ∀ e, nymHistory[n]? = some e →
      (e = .reject → stewards (step id 2 (run id 2 (nymHistory.take n)) .reject).head = stewards (run id 2 (nymHistory.take n)).head) ∧
      (e = .restart → stewards (run id 2 (nymHistory.take n)).committed = 0) := by
    intro n hn e h
    rcases n with _ | _ | _ | _ | _ | _ | _ | n <;>
      first
      | omega
      | (simp [nymHistory] at h; subst h
         refine ⟨fun h => ?_, fun h => ?_⟩ <;> first | (cases h; done) | decide +kernel)
  rw [hp]
  have h7 := key pre.length this e hx
  simpa using h7

example : (run id 2 nymHistory).count = stewards (run id 2 nymHistory).head ∧ stewards (run id 2 nymHistory).head = 2 ∧
    (run id 2 nymHistory).head.keys = [[1], [2], [5]] :=
  ⟨steward_count_partial _ _ _ nymHistory_undisturbed, by decide +kernel, by decide +kernel⟩
example : validate id 2 (run id 2 nymHistory).count (run id 2 nymHistory).head (nymAdd 3) = some .limit := by decide +kernel
example : stewards (run id 2 nymHistory).head ≤ 2 :=
  steward_limit_kept_partial id 2 _ nymHistory_undisturbed (by
    intro pre r post he
    have hp : pre = nymHistory.take pre.length := by rw [he]; simp
    have hx : nymHistory[pre.length]? = some (.restore r) := by rw [he]; simp
    rw [hp]
    generalize pre.length = n at *
    rcases n with _ | _ | _ | _ | _ | _ | _ | n <;> simp [nymHistory] at hx
    subst hx; decide +kernel)

/-- **C51**, negation: after a restart the limit is not kept. -/
theorem steward_limit_after_restart : ∃ (limit : Nat) (evs : List Ev) (r : Req), MakesSteward r ∧
    stewards (run id limit evs).head = limit ∧
    validate id limit (run id limit evs).count (run id limit evs).head r = none :=
  ⟨1, [.restore nymGenesis, .restart], nymAdd 2, rfl, by decide +kernel, by decide +kernel⟩

/-- **C51**, negation: after a batch is reverted, a node refuses a steward although there
is room, and a node with the same state accepts it. -/
theorem steward_limit_after_reject : ∃ (limit : Nat) (evs evs' : List Ev) (r : Req), MakesSteward r ∧
    (run id limit evs).head = (run id limit evs').head ∧ stewards (run id limit evs).head < limit ∧
    validate id limit (run id limit evs).count (run id limit evs).head r = some .limit ∧
    validate id limit (run id limit evs').count (run id limit evs').head r = none :=
  ⟨2, [.restore nymGenesis, .batch [nymAdd 2], .reject], [.restore nymGenesis], nymAdd 2, rfl, by decide +kernel,
    by decide +kernel, by decide +kernel, by decide +kernel⟩

/-- **C74**, negation on a concrete pool: a steward that changes only its key is a
steward no more. -/
theorem steward_lost : ∃ (d : Domain) (r : Req), isSteward id d r.sender = true ∧ r.dest = r.sender ∧ r.role = none ∧
    validate id 20 1 d r = none ∧ isSteward id (update id (d, 1) r).1 r.sender = false :=
  ⟨(run id 20 [.restore nymGenesis]).head, { sender := [1], dest := [1], verkey := some (some [7]) }, by decide +kernel, rfl, rfl,
    by decide +kernel, by decide +kernel⟩

example : ∃ n, (run id 20 [.restore nymGenesis]).head.get? (id [1]) = some n ∧ n.role = some (ascii "2") :=
  nym_by_stewards id 20 1 _ (nymAdd 2) (by decide +kernel)

end Verif.Props
