import Verif.Lemmas.IvfTrained
import Verif.Model.FlatConc

/-!
# A flat index between calls, and calls of several threads that keep apart (C244)
-/

namespace Valori.FConc
variable {V M D : Type}

/-- An index between calls: every stored id is listed once and its vector is cached, nothing else is listed or cached. -/
structure Settled (s : FConc V M D) : Prop where
  storeKeys : s.store.keys.Nodup
  cacheKeys : s.cache.keys.Nodup
  agree : ∀ id, s.cache.get? id = (s.store.get? id).map Prod.fst
  ids : ∀ id, s.ids.count id = if (s.store.get? id).isSome then 1 else 0

/-- No id is touched by two of the calls; insertions get new ids, all different. -/
structure Apart (ops : Nat → FOp V M) (s0 : FConc V M D) : Prop where
  owner : ∀ t t' id, opTouches (ops t) id → opTouches (ops t') id → t = t'
  rows : ∀ t rows, ops t = .insert rows → (rows.map FRow.id).Nodup
  fresh : ∀ t id, opInserts (ops t) id → s0.store.get? id = none

/-- The id is neither stored nor cached nor listed. -/
structure Gone (s : FConc V M D) (id : Id) : Prop where
  store : s.store.get? id = none
  cache : s.cache.get? id = none
  ids : s.ids.count id = 0

/-- The row is stored and cached and listed once. -/
structure In (s : FConc V M D) (id : Id) (v : V) (m : Option M) : Prop where
  store : s.store.get? id = some (v, m)
  cache : s.cache.get? id = some v
  ids : s.ids.count id = 1

/-- Nothing has changed about an id. -/
structure Same (id : Id) (s s' : FConc V M D) : Prop where
  store : s'.store.get? id = s.store.get? id
  cache : s'.cache.get? id = s.cache.get? id
  ids : s'.ids.count id = s.ids.count id

end Valori.FConc
