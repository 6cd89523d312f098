/-
Points with three coordinates (`d3.Vec3`), over any type of coordinates.

The vector library gogeo is not part of the repository; its functions are modelled by the functions
of the same name of the original C++ (`dtVperp2D u v = u.z*v.x - u.x*v.z`,
`dtVdot2D u v = u.x*v.x + u.z*v.z`).
-/
import Mathlib.Algebra.Field.Defs
import Mathlib.Order.Defs.LinearOrder

namespace Verif

/-- A point, `d3.Vec3`. -/
@[ext] structure V3 (K : Type) where
  x : K
  y : K
  z : K
deriving DecidableEq

section
variable {K : Type} [Field K]

/-- `Vec3.Sub`. -/
def V3.sub (a b : V3 K) : V3 K := ⟨a.x - b.x, a.y - b.y, a.z - b.z⟩
/-- `Vec3.Perp2D`. -/
def V3.perp (u v : V3 K) : K := u.z * v.x - u.x * v.z
/-- `Vec3.Dot2D`. -/
def V3.dot (u v : V3 K) : K := u.x * v.x + u.z * v.z

end

section
variable {K : Type} [LinearOrder K]

/-- `d3.Vec3Min` (into the first argument). -/
def V3.vmin (a b : V3 K) : V3 K := ⟨min a.x b.x, min a.y b.y, min a.z b.z⟩
/-- `d3.Vec3Max` (into the first argument). -/
def V3.vmax (a b : V3 K) : V3 K := ⟨max a.x b.x, max a.y b.y, max a.z b.z⟩

end
end Verif
