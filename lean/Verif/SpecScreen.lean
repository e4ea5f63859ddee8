import Verif.SpecStdout
import Verif.Model.MainSteps
import Verif.Properties.Program

/-! # Notions for the stream of standard output (C72) -/

namespace Clarith.Spec

open Steps

/-- The pieces of a listing: for every entry the label with a colon and a space, the text letter by
letter, and the end of the line. -/
inductive Pieces : List (String × ℚ) → List (List Char) → Prop
  | nil : Pieces [] []
  | cons {label q rest text t} (h : Text q text) (ht : Pieces rest t) :
      Pieces ((label, q) :: rest)
        ((label.toList ++ [':', ' ']) :: (text.map ([·]) ++ [['\n']] ++ t))

/-- The texts in a stream, without the debugging lines. -/
def texts (ps : List Piece) : List (List Char) :=
  ps.filterMap fun
    | .text t => some t
    | .line _ => none

/-- The debugging lines in a stream. -/
def debugging (ps : List Piece) : List Coef4 :=
  ps.filterMap fun
    | .text _ => none
    | .line k => some k

end Clarith.Spec
