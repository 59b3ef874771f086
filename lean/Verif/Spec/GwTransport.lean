import Verif.Model.GwTransport
/-! Vocabulary for C40 to C42.  Logs are newest first: in `l1 ++ e :: l2` the events of `l2` are older than `e`. -/
namespace Verif.GwTransport

/-- Is the event an attempt of thread `t` to send? -/
def isTry (t : Nat) : Ev → Bool
  | .transmitted t' _ => t' == t
  | .sendFailed t' _ => t' == t
  | _ => false

end Verif.GwTransport

namespace Verif.GwReceiver

/-- Handled messages, oldest first. -/
def handled : List Ev → List Msg
  | [] => []
  | .handled m :: l => handled l ++ [m]
  | .acked _ :: l => handled l

end Verif.GwReceiver
