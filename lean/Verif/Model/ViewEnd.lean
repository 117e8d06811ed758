import Verif.Model.ViewChange
/-!
# Acknowledgements sent in a view change

`process_view_change_message` also sends a VIEW_CHANGE_ACK to the primary; the
service of `Model/ViewChange.lean` does not record them.
-/
namespace Verif.VC

variable (cfg : Cfg)

/-- view_change_service.py:162-193, `process_view_change_message`: what is sent to
the primary (view, node, digest) when an event is handled. A primary sends none,
and nothing is sent for a message not processed. -/
def Service.ackFor (s : Service) : Event → List (Nat × Node × Nat)
  | .viewChange vc frm =>
    if s.crashed then []
    else if s.validate vc.viewNo ≠ .process then []
    else if s.primaryName = cfg.name then []
    else [(vc.viewNo, frm, cfg.vd vc)]
  | _ => []

/-- The acknowledgements sent along a list of events. -/
def acksFrom (s : Service) : List Event → List (Nat × Node × Nat)
  | [] => []
  | e :: evs => s.ackFor cfg e ++ acksFrom (s.step cfg e) evs

end Verif.VC
