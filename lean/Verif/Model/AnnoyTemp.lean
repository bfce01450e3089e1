import Verif.Model.Annoy
import Verif.Spec.AnnoyTemp

/-!
# `AnnoyIndex` with `build_on_disk` (`/repo/src/valori/indices/annoy.py`)

The temporary file of annoy.py:52 and the file system around it, which `Model/Annoy` leaves out.
Simplifications: removing a file that exists does not fail (`os.unlink`, annoy.py:311, 423); nobody
else creates files; `save` to a path of the caller's (annoy.py:361-380) is not among the calls.
-/

namespace Valori
open Spec (AnCall TmpCall)

/-- What is in a file: nothing (as `mkstemp` makes it), a saved library object, or something that is
not ours. -/
inductive TmpFile (L : Type) where
  | empty
  | saved (l : L)
  | foreign (n : Nat)
deriving DecidableEq, Repr

/-- The configuration and the outside world.  `mkstemp` is `tempfile.mkstemp` (annoy.py:76), `none` when it
raises.  `saveErr` says whether `save` of the library raises and what it then leaves in the file, `unloaded` is the
library object after `unload` and `loadL` what `load` of the library makes of a file (annoy.py:216-220). -/
structure TmpEnv (L : Type) where
  onDisk : Bool
  mkstemp : (String → Option (TmpFile L)) → Option String
  saveErr : L → Option (Err × Option (TmpFile L))
  unloaded : L → L
  loadL : TmpFile L → Except Err L

/-- The index with `_temp_file` (annoy.py:52), and the files that exist. -/
structure AnTmp (L V M : Type) where
  idx : Annoy L V M
  temp : Option String
  files : String → Option (TmpFile L)

namespace AnTmp
variable {L V F M : Type}

/-- `initialize`, annoy.py:69-79. -/
def init (w : TmpEnv L) (s : AnTmp L V M) : Res (AnTmp L V M) Unit :=
  if w.onDisk then
    match w.mkstemp s.files with
    | none => (.error .other, s)
    | some p =>
      (.ok (), { s with idx := s.idx.init, temp := some p, files := Function.update s.files p (some .empty) })
  else (.ok (), { s with idx := s.idx.init })

/-- `build`, annoy.py:202-225. `save(None)` raises a TypeError. -/
def build (env : AnEnv L V F M) (w : TmpEnv L) (s : AnTmp L V M) : Res (AnTmp L V M) Unit :=
  if !s.idx.inited then (.error .index, s)
  else if s.idx.dimension.isNone && decide (0 < s.idx.vectors.length) then (.error .index, s)
  else
    match s.idx.lib with
    | none => (.ok (), { s with idx := { s.idx with built := true } })
    | some l =>
      match env.build l with
      | .error e => (.error e, s)
      | .ok l' =>
        if w.onDisk then
          match s.temp with
          | none => (.error .typeE, { s with idx := { s.idx with lib := some l' } })
          | some p =>
            match w.saveErr l' with
            | some (e, left) =>
              (.error e, { s with idx := { s.idx with lib := some l' }, files := Function.update s.files p left })
            | none =>
              let files := Function.update s.files p (some (.saved l'))
              match w.loadL (.saved l') with
              | .error e => (.error e, { s with idx := { s.idx with lib := some (w.unloaded l') }, files := files })
              | .ok l'' =>
                (.ok (), { s with idx := { s.idx with lib := some l'', built := true }, files := files })
        else (.ok (), { s with idx := { s.idx with lib := some l', built := true } })

/-- `if self._temp_file and os.path.exists(self._temp_file)`, annoy.py:310-312, 422-424: the file is
removed and its name forgotten. -/
def dropTemp (s : AnTmp L V M) : AnTmp L V M :=
  match s.temp with
  | none => s
  | some p =>
    if p ≠ "" ∧ (s.files p).isSome then { s with temp := none, files := Function.update s.files p none }
    else s

/-- `clear`, annoy.py:299-312. -/
def clear (s : AnTmp L V M) : AnTmp L V M := dropTemp { s with idx := s.idx.clear }

/-- `close`, annoy.py:416-427. -/
def close (s : AnTmp L V M) : AnTmp L V M :=
  let s1 := dropTemp { s with idx := { s.idx with lib := none } }
  let s2 := clear s1
  { s2 with idx := { s2.idx with inited := false } }

/-- One call (harness); the other calls of the index are those of `Model/Annoy`. -/
def call (env : AnEnv L V F M) (w : TmpEnv L) (s : AnTmp L V M) :
    TmpCall V M (Option (L × Option Nat × AnMetric)) → AnTmp L V M
  | .init => (init w s).2
  | .close => close s
  | .plain .build => (build env w s).2
  | .plain .clear => clear s
  | .plain c => { s with idx := s.idx.call env c }
  | .load file => { s with idx := (s.idx.load file).2 }
  | .removed p => { s with files := Function.update s.files p none }

/-- A history (harness). -/
def run (env : AnEnv L V F M) (w : TmpEnv L) (s : AnTmp L V M)
    (h : List (TmpCall V M (Option (L × Option Nat × AnMetric)))) : AnTmp L V M :=
  h.foldl (call env w) s

end AnTmp
end Valori
