/-!
# What a storage backend should do: an ordered map with a lifetime

This file does not mention the implementation.  A backend accepts the calls below; its
observable behaviour is the list of replies to a list of calls.
-/

namespace Valori.Spec

/-- Calls a user can make on a backend. -/
inductive Call (V M : Type) where
  | init
  | close
  | store (id : String) (v : V) (m : Option M)
  | update (id : String) (v : V) (m : Option M)
  | delete (id : String)
  | retrieve (id : String)
  | list (limit : Option Nat)
  | count
deriving DecidableEq, Repr

/-- What the user sees. -/
inductive Reply (V M : Type) where
  | done
  | flag (b : Bool)
  | found (r : Option (V × Option M))
  | ids (l : List String)
  | num (n : Nat)
  | notInitialized
  | raised
deriving DecidableEq, Repr

/-- Rename the ids of a call. -/
def Call.mapId {V M : Type} (f : String → String) : Call V M → Call V M
  | .store id v m => .store (f id) v m
  | .update id v m => .update (f id) v m
  | .delete id => .delete (f id)
  | .retrieve id => .retrieve (f id)
  | c => c

/-- Ids mentioned by a call. -/
def Call.ids {V M : Type} : Call V M → List String
  | .store id _ _ => [id]
  | .update id _ _ => [id]
  | .delete id => [id]
  | .retrieve id => [id]
  | _ => []

/-- Metadata written by a call. -/
def Call.metas {V M : Type} : Call V M → List M
  | .store _ _ (some m) => [m]
  | .update _ _ (some m) => [m]
  | _ => []

/-- The abstract state: open or not, the content, and the ids in order of creation. -/
structure Store (V M : Type) where
  isOpen : Bool
  content : String → Option (V × Option M)
  order : List String

/-- Overwrite one id. -/
def put {α : Type} (f : String → Option α) (id : String) (x : Option α) : String → Option α :=
  fun y => if y = id then x else f y

namespace Store
variable {V M : Type}

/-- A store with nothing in it. -/
def empty (isOpen : Bool) : Store V M := ⟨isOpen, fun _ => none, []⟩

/-- One call.  `volatile` says that `init` and `close` forget the content; `scan` is the
order in which the ids are listed. -/
def step (volatile : Bool) (scan : List String → List String) (s : Store V M) :
    Call V M → Reply V M × Store V M
  | .init => (.done, if volatile then empty true else { s with isOpen := true })
  | .close => (.done, if volatile then empty false else { s with isOpen := false })
  | .store id v m =>
    if id = "" then (.flag false, s)
    else if s.isOpen then
      (.flag true, { s with
        content := put s.content id (some (v, m))
        order := if id ∈ s.order then s.order else s.order ++ [id] })
    else (.raised, s)
  | .update id v m =>
    if s.isOpen then
      if (s.content id).isSome then
        (.flag true, { s with content := put s.content id (some (v, m)) })
      else (.flag false, s)
    else (.raised, s)
  | .delete id =>
    if s.isOpen then
      if (s.content id).isSome then
        (.flag true, { s with content := put s.content id none, order := s.order.erase id })
      else (.flag false, s)
    else (.raised, s)
  | .retrieve id => if s.isOpen then (.found (s.content id), s) else (.raised, s)
  | .list limit =>
    if s.isOpen then
      (.ids (match limit with | none => scan s.order | some n => (scan s.order).take n), s)
    else (.raised, s)
  | .count => (if s.isOpen then .num s.order.length else .notInitialized, s)

/-- A whole history: replies in order, and the final state. -/
def run (volatile : Bool) (scan : List String → List String) (s : Store V M) :
    List (Call V M) → List (Reply V M) × Store V M
  | [] => ([], s)
  | c :: cs =>
    let r := step volatile scan s c
    let rs := run volatile scan r.2 cs
    (r.1 :: rs.1, rs.2)

end Store
end Valori.Spec
