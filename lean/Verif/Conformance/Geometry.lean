import Verif.Geometry.Model
/-!
# `tests/BaseGeometryTest.cpp` against the model

These are tests of the model, not proofs about it: every assertion of the repository's unit test,
evaluated.
-/
namespace Verif.Conformance
open Verif.Geometry

-- BaseGeometryTest.cpp:9-15
example : Size.add ⟨2, 3⟩ ⟨4, 5⟩ = .ok ⟨6, 8⟩ := by decide
-- :17-23
example : Size.sub int32 ⟨10, 8⟩ ⟨5, 3⟩ = .ok ⟨5, 5⟩ := by decide
-- :25-31
example : Size.mul ⟨3, 4⟩ 2 = .ok ⟨6, 8⟩ := by decide
-- :33-39
example : Size.div ⟨12, 10⟩ 2 = .ok ⟨6, 5⟩ := by decide
-- :41-47
example : Point.add int32 ⟨2, 3⟩ ⟨4, 5⟩ = .ok ⟨6, 8⟩ := by decide
-- :49-55
example : Point.addAssign int32 ⟨2, 3⟩ ⟨4, 5⟩ = .ok ⟨6, 8⟩ := by decide
-- :57-63
example : Point.eq ⟨2, 3⟩ ⟨2, 3⟩ = true ∧ Point.ne ⟨2, 3⟩ ⟨4, 5⟩ = true := by decide
-- :66-74
example : Rect.add int32 ⟨⟨1, 2⟩, ⟨3, 4⟩⟩ ⟨5, 6⟩ = .ok ⟨⟨6, 8⟩, ⟨3, 4⟩⟩ := by decide
-- :76-84
example : Rect.addAssign int32 ⟨⟨1, 2⟩, ⟨3, 4⟩⟩ ⟨5, 6⟩ = .ok ⟨⟨6, 8⟩, ⟨3, 4⟩⟩ := by decide
-- :86-91
example : Rect.bottomLeft int32 ⟨⟨1, 2⟩, ⟨3, 4⟩⟩ = .ok ⟨1, 5⟩ := by decide
-- :93-98
example : Rect.topRight ⟨⟨1, 2⟩, ⟨3, 4⟩⟩ = .ok ⟨3, 2⟩ := by decide
-- :100-105
example : Rect.bottomRight int32 ⟨⟨1, 2⟩, ⟨3, 4⟩⟩ = .ok ⟨3, 5⟩ := by decide
-- :107-113
example : Matrix.mul int32 ⟨2, 1, -3, 0⟩ ⟨2, 3⟩ = .ok ⟨7, -6⟩ := by decide

end Verif.Conformance
