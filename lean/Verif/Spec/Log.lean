import Verif.Model.Log

/-! What C69 says: which messages of a program are to be in the log.  Only the syntax of programs and messages is from the model. -/

namespace Clink.Log.Spec

/-- The lines for an error: its number, the message, the text of the system. -/
def errorLines (num : Code → Text) (m : Msg) (code : Code) (detail : Option Text) : List Msg :=
  { m with text := num code } :: m :: (detail.toList.map fun t => { m with text := t })

/-- A number of 32 bits as a signed one. -/
def signed (e : Nat) : Int := if e < 2147483648 then e else (e : Int) - 4294967296

/-- The messages of a program in order; those of groups that are discarded are not there, unless the group is verbose. -/
def wanted (num : Code → Text) : Prog → List Msg
  | .done => []
  | .log m p => m :: wanted num p
  | .err m e d p => errorLines num m (.signed (signed e)) d ++ wanted num p
  | .defer m p => m :: wanted num p
  | .group v b d p => (if d && !v then [] else wanted num b) ++ wanted num p

/-- Something else than deferred messages is logged before the first group. -/
inductive Started : Prog → Prop
  | log (m : Msg) (p : Prog) : Started (.log m p)
  | err (m : Msg) (e : Nat) (d : Option Text) (p : Prog) : Started (.err m e d p)
  | defer (m : Msg) (p : Prog) : Started p → Started (.defer m p)

/-- Only deferred messages. -/
inductive OnlyDeferred : Prog → Prop
  | done : OnlyDeferred .done
  | defer (m : Msg) (p : Prog) : OnlyDeferred p → OnlyDeferred (.defer m p)

end Clink.Log.Spec
