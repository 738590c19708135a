import Verif.Model.Sticky
/-
What `history.sticky_search` promises: "reusing a history line does not add the reused line to the end of the history, and it leaves the history
search position on the reused line so next/prev history can continue from there (e.g. replaying commands via Up many times, Enter, Down, Enter,
Down, Enter, etc)" (clink/lib/src/sticky_search.cpp:22-25).
-/
namespace Clink.Sticky.Spec

/-- `Up` many times. -/
def ups (k : Nat) : List Key := List.replicate k .up

def downs (k : Nat) : List Key := List.replicate k .down

/-- Part of the history, not to be added. -/
def reused (hist : List Text) (from' n : Nat) : List (Text × Bool) := ((hist.drop from').take n).map (·, false)

end Clink.Sticky.Spec
