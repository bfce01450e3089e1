import Verif.Model.ClientIndices
import Verif.Model.Lsh
import Verif.Model.Annoy

/-!
# `client.delete(id)` with one id instead of a list

docs/getting_started.rst:202 documents this call.  `VectorDBClient.delete` (client.py:82-87) hands its
argument to `index.delete`, which runs through it with `for ... in ids` (flat.py, ivf.py, hnsw.py,
lsh.py:224, annoy.py:111); running through a Python string gives its characters.
-/

namespace Valori

/-- What `for s in id` runs through when `id` is a string: its characters, each a string. -/
def pyChars (id : String) : List Id := id.toList.map fun c => String.ofList [c]

end Valori
