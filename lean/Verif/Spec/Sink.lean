import Verif.Model.Sink

/-! # Formatting that reports failures -/

set_option autoImplicit false

namespace Dendron

/-- An implementation of `Display` or `Debug` that gives the pieces `l` to the writer one after the other, stops at
the first piece that fails, and returns the failure (as everything written with `write!(..)?` does). -/
inductive Relays : Fmt → List (List Char) → Prop
  | done : Relays (.done true) []
  | write {s : List Char} {k : Bool → Fmt} {l : List (List Char)} (hf : k false = .done false) (ht : Relays (k true) l) :
    Relays (.write s k) (s :: l)

end Dendron
