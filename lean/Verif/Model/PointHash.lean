import Verif.Model.Particle
import Verif.Model.Indexing

/-! Model of `Particles.__hash__` (lips/particles.py:96-98). -/

namespace Lips

variable {K : Type*} [Field K]

/-- What `Particles.__hash__` hashes, particles.py:96-98: the tuple of the hashes of the particles, here of what these hash; `none` when
a particle cannot be hashed. Internal masses do not enter. -/
def pointHashKey (c : Ctx K) (ps : List (Particle K)) : Option (List (HashKey K)) := ps.mapM (hashKey c)

open Classical in
/-- `Particle.__eq__` as a boolean. -/
noncomputable def pEqb (p q : Particle K) : Bool := decide (pEq p q)

end Lips
