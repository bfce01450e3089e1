import Verif.Spec.Storage

/-!
# What a caller knows about an id from the replies it got
-/

namespace Valori.Spec

variable {V M : Type}

/-- What is known about id `x` after the calls and replies (newest first): `some w` if the last call
about it settled what it holds, `none` if a write raised since.  `first` is what was known before. -/
def lastWord (x : String) (first : Option (Option (V × Option M))) :
    List (Call V M × Reply V M) → Option (Option (V × Option M))
  | [] => first
  | (.store y v m, r) :: h =>
    if y = x then
      match r with
      | .flag true => some (some (v, m))
      | .flag false => lastWord x first h
      | _ => none
    else lastWord x first h
  | (.update y v m, r) :: h =>
    if y = x then
      match r with
      | .flag true => some (some (v, m))
      | .flag false => some none
      | _ => none
    else lastWord x first h
  | (.delete y, r) :: h =>
    if y = x then
      match r with
      | .flag _ => some none
      | _ => none
    else lastWord x first h
  | _ :: h => lastWord x first h

end Valori.Spec
