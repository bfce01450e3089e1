import Mathlib.Data.Rat.Defs
import Verif.Model.Chunking
import Verif.Model.Cleaning

/-!
# What the chunking and the cleaning processor report about their work

`ChunkingProcessor.get_stats` (processors/chunking.py:239-253) and `CleaningProcessor.get_stats`
(processors/cleaning.py:168-191).  Simplified: quotients are exact; the entries that repeat the
configuration are left out.
-/

namespace Valori

/-- `average_chunk_size`, chunking.py:250-251. -/
def Chunker.average (p : Chunker) : ℚ := p.chars / max p.created 1

/-- Documents one after the other through `process`; an error does not stop the caller from passing the
next document. -/
def Chunker.feed (p : Chunker) : List ChunkIn → List (Except Err (List Chunk)) × Chunker
  | [] => ([], p)
  | d :: ds =>
    let r := p.process d
    let rest := r.2.feed ds
    (r.1 :: rest.1, rest.2)

/-- `compression_ratio`, cleaning.py:170-174. -/
def CleanStats.ratio (s : CleanStats) : ℚ := if s.before > 0 then s.after / s.before else 0

/-- `characters_removed`, cleaning.py:182-183. -/
def CleanStats.removed (s : CleanStats) : Int := s.before - s.after

/-- Documents one after the other through the `process` of an initialised cleaning processor. -/
def cleanFeed {C D : Type} (L : CleanLib) (c : CleanCfg) (s : CleanStats) :
    List (Doc C D) → List (Doc C D) × CleanStats
  | [] => ([], s)
  | d :: ds =>
    let r := cleanProcess L c d s
    let rest := cleanFeed L c r.2 ds
    (r.1 :: rest.1, rest.2)

end Valori
