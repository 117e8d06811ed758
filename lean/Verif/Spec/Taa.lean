import Verif.Model.Taa
/-!
# When a request needs, and has, an acceptance of the agreement
-/
namespace Verif.Spec.Taa
open Verif Verif.Taa

/-- Midnight (UTC) before the time `t`. -/
def midnight (t : Int) : Int := t - t % 86400

/-- An acceptance is good for an agreement in a batch of time `ppTime`: the agreement
is not retired before the batch, the mechanism is listed, and the time of acceptance is
a midnight, from the day of the ratification, less an allowance, to the day of the
batch, plus an allowance. -/
structure GoodAcceptance (cfg : Cfg) (mechanisms : List Bytes) (r : Rec) (a : Acceptance) (ppTime : Int) : Prop where
  notRetired : ∀ t, r.retired = some t → t ≠ 0 → ppTime ≤ t
  whole : midnight a.time = a.time
  notBefore : midnight (r.ratified - cfg.beforeTaa) ≤ a.time
  notAfter : a.time ≤ midnight (ppTime + cfg.afterPp)
  listed : a.mechanism ∈ mechanisms

/-- The requests that may pass: without acceptance on ledgers that need none; without
conditions if no agreement is in force; otherwise with a good acceptance of an existing
agreement. -/
inductive MayPass (cfg : Cfg) (aml : Option (List Bytes)) (s : State) (acceptance : Option Acceptance) (ppTime : Int) :
    (required : Bool) → Prop
  | notRequired : acceptance = none → MayPass cfg aml s acceptance ppTime false
  | notInForce : (∀ d, s.latest = some d → s.taas.get? d = none) → MayPass cfg aml s acceptance ppTime true
  | accepted (a : Acceptance) (r : Rec) (l : List Bytes) : acceptance = some a → s.taas.get? a.digest = some r →
      aml = some l → GoodAcceptance cfg l r a ppTime → MayPass cfg aml s acceptance ppTime true

/-- The calendar covers the times in question: years 1 to 9999. -/
def InCalendar (t : Int) : Prop := -62135596800 ≤ t ∧ t ≤ 253402300799

/-- A trustee asked in the history for an agreement with this version and text. -/
def Asked (h : List Submit) (version text : Bytes) : Prop :=
  ∃ e ∈ h, e.trustee e.identifier = true ∧ ∃ ratified retired, e.op = .taa version (some text) ratified retired

/-- Trustees asked for two agreements of different versions with the same digest. -/
def Clash (H : Bytes → Bytes) (h : List Submit) : Prop :=
  ∃ v t v' t', Asked h v t ∧ Asked h v' t' ∧ v ≠ v' ∧ H (v ++ t) = H (v' ++ t')

end Verif.Spec.Taa
