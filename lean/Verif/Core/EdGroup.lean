import Verif.Core.Montgomery
import Verif.Core.Edwards
import Mathlib.Algebra.Group.Basic

/-!
# The group of points of a complete twisted Edwards curve

When `a` is a nonzero square and `d` is not a square the points of `a x^2 + y^2 = 1 + d x^2 y^2` form a commutative group under the addition formulas.
Associativity is a polynomial identity modulo the three curve equations; the multipliers are given.
-/

namespace Verif
namespace TEd
variable {K : Type*} [Field K]

theorem assoc_x {a d x1 y1 x2 y2 x3 y3 : K} (h1 : a * x1 ^ 2 + y1 ^ 2 - 1 - d * x1 ^ 2 * y1 ^ 2 = 0)
    (h2 : a * x2 ^ 2 + y2 ^ 2 - 1 - d * x2 ^ 2 * y2 ^ 2 = 0) (h3 : a * x3 ^ 2 + y3 ^ 2 - 1 - d * x3 ^ 2 * y3 ^ 2 = 0) :
    ((x1 * y2 + y1 * x2) * (1 - d * (x1 * x2 * y1 * y2)) * y3 + (y1 * y2 - a * (x1 * x2)) * (1 + d * (x1 * x2 * y1 * y2)) * x3) *
      ((1 + d * (x2 * x3 * y2 * y3)) * (1 - d * (x2 * x3 * y2 * y3)) + d * (x1 * y1 * (x2 * y3 + y2 * x3) * (y2 * y3 - a * (x2 * x3)))) =
    (x1 * (y2 * y3 - a * (x2 * x3)) * (1 + d * (x2 * x3 * y2 * y3)) + y1 * (x2 * y3 + y2 * x3) * (1 - d * (x2 * x3 * y2 * y3))) *
      ((1 + d * (x1 * x2 * y1 * y2)) * (1 - d * (x1 * x2 * y1 * y2)) + d * ((x1 * y2 + y1 * x2) * (y1 * y2 - a * (x1 * x2)) * x3 * y3)) := by
  linear_combination
    ((-1) * d * y1 * x2 * y2 ^ 4 * x3 ^ 2 * y3 + (-1) * d * y1 * x2 ^ 2 * y2 ^ 3 * x3 + (-1) * d * y1 * x2 ^ 3 * y2 ^ 2 * y3 + 1 * d * y1 * x2 ^ 3 * y2 ^ 2
      * y3 ^ 3 + 1 * d * x1 * x2 * y2 ^ 4 * x3 * y3 ^ 2 + (-1) * d * x1 * x2 ^ 2 * y2 ^ 3 * y3 + 1 * d * x1 * x2 ^ 2 * y2 ^ 3 * y3 ^ 3 + 1 * d ^ 2 * y1 * x2
      ^ 3 * y2 ^ 4 * x3 ^ 2 * y3 + 1 * d ^ 2 * y1 * x2 ^ 4 * y2 ^ 3 * x3 * y3 ^ 2 + (-1) * d ^ 2 * x1 * x2 ^ 3 * y2 ^ 4 * x3 * y3 ^ 2 + 1 * a * d * y1 * x2
      ^ 2 * y2 ^ 3 * x3 ^ 3 + (-1) * a * d * y1 * x2 ^ 4 * y2 * x3 * y3 ^ 2 + 1 * a * d * x1 * x2 ^ 3 * y2 ^ 2 * x3 + 1 * a * d ^ 2 * x1 * x2 ^ 4 * y2 ^ 3 *
      x3 ^ 2 * y3 + (-1) * a ^ 2 * d * x1 * x2 ^ 3 * y2 ^ 2 * x3 ^ 3 + (-1) * a ^ 2 * d * x1 * x2 ^ 4 * y2 * x3 ^ 2 * y3) * h1 +
    (1 * y1 * y2 * x3 + (-1) * y1 * y2 * x3 * y3 ^ 2 + 1 * y1 * x2 * y3 + (-1) * y1 * x2 * y3 ^ 3 + (-1) * y1 ^ 3 * y2 * x3 + 1 * y1 ^ 3 * y2 * x3 * y3 ^ 2
      + (-1) * y1 ^ 3 * x2 * y3 + 1 * y1 ^ 3 * x2 * y3 ^ 3 + 1 * x1 * y2 * y3 + (-1) * x1 * y2 * y3 ^ 3 + (-1) * x1 * y1 ^ 2 * y2 * y3 + 1 * x1 * y1 ^ 2 *
      y2 * y3 ^ 3 + 1 * d * y1 * y2 * x3 ^ 3 * y3 ^ 2 + 1 * d * y1 * x2 * x3 ^ 2 * y3 ^ 3 + (-1) * d * y1 * x2 * y2 ^ 2 * x3 ^ 2 * y3 + (-1) * d * y1 * x2 ^
      2 * y2 * x3 * y3 ^ 2 + (-1) * d * y1 ^ 3 * y2 * x3 ^ 3 * y3 ^ 2 + (-1) * d * y1 ^ 3 * x2 * x3 ^ 2 * y3 ^ 3 + 1 * d * y1 ^ 3 * x2 * y2 ^ 2 * x3 ^ 2 *
      y3 + 1 * d * y1 ^ 3 * x2 ^ 2 * y2 * x3 * y3 ^ 2 + 1 * d * x1 * y2 * x3 ^ 2 * y3 ^ 3 + 1 * d * x1 * x2 * y2 ^ 2 * x3 * y3 ^ 2 + (-1) * d * x1 * y1 ^ 2
      * y2 * x3 ^ 2 * y3 ^ 3 + (-1) * d * x1 * y1 ^ 2 * x2 * y2 ^ 2 * x3 * y3 ^ 2 + 1 * d ^ 2 * x1 * y1 ^ 2 * x2 * y2 ^ 2 * x3 ^ 3 * y3 ^ 2 + (-1) * d ^ 2 *
      x1 * y1 ^ 2 * x2 ^ 2 * y2 * x3 ^ 2 * y3 ^ 3 + (-1) * d ^ 2 * x1 ^ 2 * y1 * x2 * y2 ^ 2 * x3 ^ 2 * y3 ^ 3 + (-1) * a * y1 * y2 * x3 ^ 3 + (-1) * a * y1
      * x2 * x3 ^ 2 * y3 + 1 * a * y1 ^ 3 * y2 * x3 ^ 3 + 1 * a * y1 ^ 3 * x2 * x3 ^ 2 * y3 + (-1) * a * x1 * y2 * x3 ^ 2 * y3 + (-1) * a * x1 * x2 * x3 + 1
      * a * x1 * x2 * x3 * y3 ^ 2 + 1 * a * x1 * y1 ^ 2 * y2 * x3 ^ 2 * y3 + 1 * a * x1 * y1 ^ 2 * x2 * x3 + (-1) * a * x1 * y1 ^ 2 * x2 * x3 * y3 ^ 2 +
      (-1) * a * x1 ^ 2 * y1 * y2 * x3 + 1 * a * x1 ^ 2 * y1 * y2 * x3 * y3 ^ 2 + (-1) * a * x1 ^ 2 * y1 * x2 * y3 + 1 * a * x1 ^ 2 * y1 * x2 * y3 ^ 3 +
      (-1) * a * x1 ^ 3 * y2 * y3 + 1 * a * x1 ^ 3 * y2 * y3 ^ 3 + (-1) * a * d * x1 * x2 * x3 ^ 3 * y3 ^ 2 + (-1) * a * d * x1 * x2 ^ 2 * y2 * x3 ^ 2 * y3
      + 1 * a * d * x1 * y1 ^ 2 * x2 * x3 ^ 3 * y3 ^ 2 + 1 * a * d * x1 * y1 ^ 2 * x2 ^ 2 * y2 * x3 ^ 2 * y3 + (-1) * a * d * x1 ^ 2 * y1 * y2 * x3 ^ 3 * y3
      ^ 2 + (-1) * a * d * x1 ^ 2 * y1 * x2 * x3 ^ 2 * y3 ^ 3 + 1 * a * d * x1 ^ 2 * y1 * x2 * y2 ^ 2 * x3 ^ 2 * y3 + 1 * a * d * x1 ^ 2 * y1 * x2 ^ 2 * y2
      * x3 * y3 ^ 2 + (-1) * a * d * x1 ^ 3 * y2 * x3 ^ 2 * y3 ^ 3 + (-1) * a * d * x1 ^ 3 * x2 * y2 ^ 2 * x3 * y3 ^ 2 + (-1) * a * d ^ 2 * x1 ^ 2 * y1 * x2
      ^ 2 * y2 * x3 ^ 3 * y3 ^ 2 + 1 * a ^ 2 * x1 * x2 * x3 ^ 3 + (-1) * a ^ 2 * x1 * y1 ^ 2 * x2 * x3 ^ 3 + 1 * a ^ 2 * x1 ^ 2 * y1 * y2 * x3 ^ 3 + 1 * a ^
      2 * x1 ^ 2 * y1 * x2 * x3 ^ 2 * y3 + 1 * a ^ 2 * x1 ^ 3 * y2 * x3 ^ 2 * y3 + 1 * a ^ 2 * x1 ^ 3 * x2 * x3 + (-1) * a ^ 2 * x1 ^ 3 * x2 * x3 * y3 ^ 2 +
      1 * a ^ 2 * d * x1 ^ 3 * x2 * x3 ^ 3 * y3 ^ 2 + 1 * a ^ 2 * d * x1 ^ 3 * x2 ^ 2 * y2 * x3 ^ 2 * y3 + (-1) * a ^ 3 * x1 ^ 3 * x2 * x3 ^ 3) * h2 +
    ((-1) * y1 * y2 * x3 + 1 * y1 * y2 ^ 3 * x3 + (-1) * y1 * x2 * y3 + 1 * y1 * x2 * y2 ^ 2 * y3 + 1 * y1 ^ 3 * y2 * x3 + (-1) * y1 ^ 3 * y2 ^ 3 * x3 + 1
      * y1 ^ 3 * x2 * y3 + (-1) * y1 ^ 3 * x2 * y2 ^ 2 * y3 + (-1) * x1 * y2 * y3 + 1 * x1 * y2 ^ 3 * y3 + 1 * x1 * y1 ^ 2 * y2 * y3 + (-1) * x1 * y1 ^ 2 *
      y2 ^ 3 * y3 + (-1) * d * x1 * y1 ^ 2 * x2 * y2 ^ 2 * x3 + 1 * d * x1 * y1 ^ 2 * x2 ^ 2 * y2 * y3 + 1 * d * x1 ^ 2 * y1 * x2 * y2 ^ 2 * y3 + 1 * a * y1
      * x2 ^ 2 * y2 * x3 + 1 * a * y1 * x2 ^ 3 * y3 + (-1) * a * y1 ^ 3 * x2 ^ 2 * y2 * x3 + (-1) * a * y1 ^ 3 * x2 ^ 3 * y3 + 1 * a * x1 * x2 * x3 + (-1) *
      a * x1 * x2 * y2 ^ 2 * x3 + 1 * a * x1 * x2 ^ 2 * y2 * y3 + (-1) * a * x1 * y1 ^ 2 * x2 * x3 + 1 * a * x1 * y1 ^ 2 * x2 * y2 ^ 2 * x3 + (-1) * a * x1
      * y1 ^ 2 * x2 ^ 2 * y2 * y3 + 1 * a * x1 ^ 2 * y1 * y2 * x3 + (-1) * a * x1 ^ 2 * y1 * y2 ^ 3 * x3 + 1 * a * x1 ^ 2 * y1 * x2 * y3 + (-1) * a * x1 ^ 2
      * y1 * x2 * y2 ^ 2 * y3 + 1 * a * x1 ^ 3 * y2 * y3 + (-1) * a * x1 ^ 3 * y2 ^ 3 * y3 + 1 * a * d * x1 ^ 2 * y1 * x2 ^ 2 * y2 * x3 + (-1) * a ^ 2 * x1
      * x2 ^ 3 * x3 + 1 * a ^ 2 * x1 * y1 ^ 2 * x2 ^ 3 * x3 + (-1) * a ^ 2 * x1 ^ 2 * y1 * x2 ^ 2 * y2 * x3 + (-1) * a ^ 2 * x1 ^ 2 * y1 * x2 ^ 3 * y3 +
      (-1) * a ^ 2 * x1 ^ 3 * x2 * x3 + 1 * a ^ 2 * x1 ^ 3 * x2 * y2 ^ 2 * x3 + (-1) * a ^ 2 * x1 ^ 3 * x2 ^ 2 * y2 * y3 + 1 * a ^ 3 * x1 ^ 3 * x2 ^ 3 * x3) * h3

theorem assoc_y {a d x1 y1 x2 y2 x3 y3 : K} (h1 : a * x1 ^ 2 + y1 ^ 2 - 1 - d * x1 ^ 2 * y1 ^ 2 = 0)
    (h2 : a * x2 ^ 2 + y2 ^ 2 - 1 - d * x2 ^ 2 * y2 ^ 2 = 0) (h3 : a * x3 ^ 2 + y3 ^ 2 - 1 - d * x3 ^ 2 * y3 ^ 2 = 0) :
    ((y1 * y2 - a * (x1 * x2)) * (1 + d * (x1 * x2 * y1 * y2)) * y3 - a * ((x1 * y2 + y1 * x2) * (1 - d * (x1 * x2 * y1 * y2)) * x3)) *
      ((1 + d * (x2 * x3 * y2 * y3)) * (1 - d * (x2 * x3 * y2 * y3)) - d * (x1 * y1 * (x2 * y3 + y2 * x3) * (y2 * y3 - a * (x2 * x3)))) =
    (y1 * (y2 * y3 - a * (x2 * x3)) * (1 + d * (x2 * x3 * y2 * y3)) - a * (x1 * (x2 * y3 + y2 * x3) * (1 - d * (x2 * x3 * y2 * y3)))) *
      ((1 + d * (x1 * x2 * y1 * y2)) * (1 - d * (x1 * x2 * y1 * y2)) - d * ((x1 * y2 + y1 * x2) * (y1 * y2 - a * (x1 * x2)) * x3 * y3)) := by
  linear_combination
    (1 * d * y1 * x2 * y2 ^ 4 * x3 * y3 ^ 2 + (-1) * d * y1 * x2 ^ 2 * y2 ^ 3 * y3 + 1 * d * y1 * x2 ^ 2 * y2 ^ 3 * y3 ^ 3 + (-1) * d ^ 2 * y1 * x2 ^ 3 *
      y2 ^ 4 * x3 * y3 ^ 2 + 1 * a * d * y1 * x2 ^ 3 * y2 ^ 2 * x3 + 1 * a * d * x1 * x2 * y2 ^ 4 * x3 ^ 2 * y3 + 1 * a * d * x1 * x2 ^ 2 * y2 ^ 3 * x3 + 1
      * a * d * x1 * x2 ^ 3 * y2 ^ 2 * y3 + (-1) * a * d * x1 * x2 ^ 3 * y2 ^ 2 * y3 ^ 3 + 1 * a * d ^ 2 * y1 * x2 ^ 4 * y2 ^ 3 * x3 ^ 2 * y3 + (-1) * a * d
      ^ 2 * x1 * x2 ^ 3 * y2 ^ 4 * x3 ^ 2 * y3 + (-1) * a * d ^ 2 * x1 * x2 ^ 4 * y2 ^ 3 * x3 * y3 ^ 2 + (-1) * a ^ 2 * d * y1 * x2 ^ 3 * y2 ^ 2 * x3 ^ 3 +
      (-1) * a ^ 2 * d * y1 * x2 ^ 4 * y2 * x3 ^ 2 * y3 + (-1) * a ^ 2 * d * x1 * x2 ^ 2 * y2 ^ 3 * x3 ^ 3 + 1 * a ^ 2 * d * x1 * x2 ^ 4 * y2 * x3 * y3 ^ 2) * h1 +
    (1 * y1 * y2 * y3 + (-1) * y1 * y2 * y3 ^ 3 + (-1) * y1 ^ 3 * y2 * y3 + 1 * y1 ^ 3 * y2 * y3 ^ 3 + 1 * d * y1 * y2 * x3 ^ 2 * y3 ^ 3 + 1 * d * y1 * x2
      * y2 ^ 2 * x3 * y3 ^ 2 + (-1) * d * y1 ^ 3 * y2 * x3 ^ 2 * y3 ^ 3 + (-1) * d * y1 ^ 3 * x2 * y2 ^ 2 * x3 * y3 ^ 2 + 1 * d ^ 2 * x1 * y1 ^ 2 * x2 * y2
      ^ 2 * x3 ^ 2 * y3 ^ 3 + (-1) * a * y1 * y2 * x3 ^ 2 * y3 + (-1) * a * y1 * x2 * x3 + 1 * a * y1 * x2 * x3 * y3 ^ 2 + 1 * a * y1 ^ 3 * y2 * x3 ^ 2 * y3
      + 1 * a * y1 ^ 3 * x2 * x3 + (-1) * a * y1 ^ 3 * x2 * x3 * y3 ^ 2 + (-1) * a * x1 * y2 * x3 + 1 * a * x1 * y2 * x3 * y3 ^ 2 + (-1) * a * x1 * x2 * y3
      + 1 * a * x1 * x2 * y3 ^ 3 + 1 * a * x1 * y1 ^ 2 * y2 * x3 + (-1) * a * x1 * y1 ^ 2 * y2 * x3 * y3 ^ 2 + 1 * a * x1 * y1 ^ 2 * x2 * y3 + (-1) * a * x1
      * y1 ^ 2 * x2 * y3 ^ 3 + (-1) * a * x1 ^ 2 * y1 * y2 * y3 + 1 * a * x1 ^ 2 * y1 * y2 * y3 ^ 3 + (-1) * a * d * y1 * x2 * x3 ^ 3 * y3 ^ 2 + (-1) * a *
      d * y1 * x2 ^ 2 * y2 * x3 ^ 2 * y3 + 1 * a * d * y1 ^ 3 * x2 * x3 ^ 3 * y3 ^ 2 + 1 * a * d * y1 ^ 3 * x2 ^ 2 * y2 * x3 ^ 2 * y3 + (-1) * a * d * x1 *
      y2 * x3 ^ 3 * y3 ^ 2 + (-1) * a * d * x1 * x2 * x3 ^ 2 * y3 ^ 3 + 1 * a * d * x1 * x2 * y2 ^ 2 * x3 ^ 2 * y3 + 1 * a * d * x1 * x2 ^ 2 * y2 * x3 * y3
      ^ 2 + 1 * a * d * x1 * y1 ^ 2 * y2 * x3 ^ 3 * y3 ^ 2 + 1 * a * d * x1 * y1 ^ 2 * x2 * x3 ^ 2 * y3 ^ 3 + (-1) * a * d * x1 * y1 ^ 2 * x2 * y2 ^ 2 * x3
      ^ 2 * y3 + (-1) * a * d * x1 * y1 ^ 2 * x2 ^ 2 * y2 * x3 * y3 ^ 2 + (-1) * a * d * x1 ^ 2 * y1 * y2 * x3 ^ 2 * y3 ^ 3 + (-1) * a * d * x1 ^ 2 * y1 *
      x2 * y2 ^ 2 * x3 * y3 ^ 2 + 1 * a * d ^ 2 * x1 * y1 ^ 2 * x2 ^ 2 * y2 * x3 ^ 3 * y3 ^ 2 + 1 * a * d ^ 2 * x1 ^ 2 * y1 * x2 * y2 ^ 2 * x3 ^ 3 * y3 ^ 2
      + (-1) * a * d ^ 2 * x1 ^ 2 * y1 * x2 ^ 2 * y2 * x3 ^ 2 * y3 ^ 3 + 1 * a ^ 2 * y1 * x2 * x3 ^ 3 + (-1) * a ^ 2 * y1 ^ 3 * x2 * x3 ^ 3 + 1 * a ^ 2 * x1
      * y2 * x3 ^ 3 + 1 * a ^ 2 * x1 * x2 * x3 ^ 2 * y3 + (-1) * a ^ 2 * x1 * y1 ^ 2 * y2 * x3 ^ 3 + (-1) * a ^ 2 * x1 * y1 ^ 2 * x2 * x3 ^ 2 * y3 + 1 * a ^
      2 * x1 ^ 2 * y1 * y2 * x3 ^ 2 * y3 + 1 * a ^ 2 * x1 ^ 2 * y1 * x2 * x3 + (-1) * a ^ 2 * x1 ^ 2 * y1 * x2 * x3 * y3 ^ 2 + 1 * a ^ 2 * x1 ^ 3 * y2 * x3
      + (-1) * a ^ 2 * x1 ^ 3 * y2 * x3 * y3 ^ 2 + 1 * a ^ 2 * x1 ^ 3 * x2 * y3 + (-1) * a ^ 2 * x1 ^ 3 * x2 * y3 ^ 3 + 1 * a ^ 2 * d * x1 ^ 2 * y1 * x2 *
      x3 ^ 3 * y3 ^ 2 + 1 * a ^ 2 * d * x1 ^ 2 * y1 * x2 ^ 2 * y2 * x3 ^ 2 * y3 + 1 * a ^ 2 * d * x1 ^ 3 * y2 * x3 ^ 3 * y3 ^ 2 + 1 * a ^ 2 * d * x1 ^ 3 *
      x2 * x3 ^ 2 * y3 ^ 3 + (-1) * a ^ 2 * d * x1 ^ 3 * x2 * y2 ^ 2 * x3 ^ 2 * y3 + (-1) * a ^ 2 * d * x1 ^ 3 * x2 ^ 2 * y2 * x3 * y3 ^ 2 + (-1) * a ^ 3 *
      x1 ^ 2 * y1 * x2 * x3 ^ 3 + (-1) * a ^ 3 * x1 ^ 3 * y2 * x3 ^ 3 + (-1) * a ^ 3 * x1 ^ 3 * x2 * x3 ^ 2 * y3) * h2 +
    ((-1) * y1 * y2 * y3 + 1 * y1 * y2 ^ 3 * y3 + 1 * y1 ^ 3 * y2 * y3 + (-1) * y1 ^ 3 * y2 ^ 3 * y3 + (-1) * d * x1 * y1 ^ 2 * x2 * y2 ^ 2 * y3 + 1 * a *
      y1 * x2 * x3 + (-1) * a * y1 * x2 * y2 ^ 2 * x3 + 1 * a * y1 * x2 ^ 2 * y2 * y3 + (-1) * a * y1 ^ 3 * x2 * x3 + 1 * a * y1 ^ 3 * x2 * y2 ^ 2 * x3 +
      (-1) * a * y1 ^ 3 * x2 ^ 2 * y2 * y3 + 1 * a * x1 * y2 * x3 + (-1) * a * x1 * y2 ^ 3 * x3 + 1 * a * x1 * x2 * y3 + (-1) * a * x1 * x2 * y2 ^ 2 * y3 +
      (-1) * a * x1 * y1 ^ 2 * y2 * x3 + 1 * a * x1 * y1 ^ 2 * y2 ^ 3 * x3 + (-1) * a * x1 * y1 ^ 2 * x2 * y3 + 1 * a * x1 * y1 ^ 2 * x2 * y2 ^ 2 * y3 + 1 *
      a * x1 ^ 2 * y1 * y2 * y3 + (-1) * a * x1 ^ 2 * y1 * y2 ^ 3 * y3 + (-1) * a * d * x1 * y1 ^ 2 * x2 ^ 2 * y2 * x3 + (-1) * a * d * x1 ^ 2 * y1 * x2 *
      y2 ^ 2 * x3 + 1 * a * d * x1 ^ 2 * y1 * x2 ^ 2 * y2 * y3 + (-1) * a ^ 2 * y1 * x2 ^ 3 * x3 + 1 * a ^ 2 * y1 ^ 3 * x2 ^ 3 * x3 + (-1) * a ^ 2 * x1 * x2
      ^ 2 * y2 * x3 + (-1) * a ^ 2 * x1 * x2 ^ 3 * y3 + 1 * a ^ 2 * x1 * y1 ^ 2 * x2 ^ 2 * y2 * x3 + 1 * a ^ 2 * x1 * y1 ^ 2 * x2 ^ 3 * y3 + (-1) * a ^ 2 *
      x1 ^ 2 * y1 * x2 * x3 + 1 * a ^ 2 * x1 ^ 2 * y1 * x2 * y2 ^ 2 * x3 + (-1) * a ^ 2 * x1 ^ 2 * y1 * x2 ^ 2 * y2 * y3 + (-1) * a ^ 2 * x1 ^ 3 * y2 * x3 +
      1 * a ^ 2 * x1 ^ 3 * y2 ^ 3 * x3 + (-1) * a ^ 2 * x1 ^ 3 * x2 * y3 + 1 * a ^ 2 * x1 ^ 3 * x2 * y2 ^ 2 * y3 + 1 * a ^ 3 * x1 ^ 2 * y1 * x2 ^ 3 * x3 + 1
      * a ^ 3 * x1 ^ 3 * x2 ^ 2 * y2 * x3 + 1 * a ^ 3 * x1 ^ 3 * x2 ^ 3 * y3) * h3

/-- Addition of points of the curve is associative. -/
theorem add_assoc' {a d : K} (hc : Complete a d) {P Q R : K × K} (hP : On a d P.1 P.2) (hQ : On a d Q.1 Q.2) (hR : On a d R.1 R.2) :
    add a d (add a d P Q) R = add a d P (add a d Q R) := by
  have s1 := on_add hc hP hQ
  have s2 := on_add hc hQ hR
  obtain ⟨u1, u2⟩ := den_ne hc hP hQ
  obtain ⟨v1, v2⟩ := den_ne hc hQ hR
  obtain ⟨w1, w2⟩ := den_ne hc s1 hR
  obtain ⟨z1, z2⟩ := den_ne hc hP s2
  obtain ⟨x1, y1⟩ := P
  obtain ⟨x2, y2⟩ := Q
  obtain ⟨x3, y3⟩ := R
  unfold On at hP hQ hR
  dsimp only at hP hQ hR
  have h1 : a * x1 ^ 2 + y1 ^ 2 - 1 - d * x1 ^ 2 * y1 ^ 2 = 0 := by linear_combination hP
  have h2 : a * x2 ^ 2 + y2 ^ 2 - 1 - d * x2 ^ 2 * y2 ^ 2 = 0 := by linear_combination hQ
  have h3 : a * x3 ^ 2 + y3 ^ 2 - 1 - d * x3 ^ 2 * y3 ^ 2 = 0 := by linear_combination hR
  have kx := assoc_x h1 h2 h3
  have ky := assoc_y h1 h2 h3
  clear s1 s2 hP hQ hR h1 h2 h3
  unfold add at *
  dsimp only at *
  generalize 1 + d * (x1 * x2 * y1 * y2) = A at *
  generalize 1 - d * (x1 * x2 * y1 * y2) = B at *
  generalize 1 + d * (x2 * x3 * y2 * y3) = A' at *
  generalize 1 - d * (x2 * x3 * y2 * y3) = B' at *
  generalize x1 * y2 + y1 * x2 = p at *
  generalize y1 * y2 - a * (x1 * x2) = q at *
  generalize x2 * y3 + y2 * x3 = p' at *
  generalize y2 * y3 - a * (x2 * x3) = q' at *
  have e1 : 1 + d * (p / A * x3 * (q / B) * y3) = (A * B + d * (p * q * x3 * y3)) / (A * B) := by field_simp
  have e2 : 1 - d * (p / A * x3 * (q / B) * y3) = (A * B - d * (p * q * x3 * y3)) / (A * B) := by field_simp
  have e3 : 1 + d * (x1 * (p' / A') * y1 * (q' / B')) = (A' * B' + d * (x1 * y1 * p' * q')) / (A' * B') := by field_simp
  have e4 : 1 - d * (x1 * (p' / A') * y1 * (q' / B')) = (A' * B' - d * (x1 * y1 * p' * q')) / (A' * B') := by field_simp
  rw [e1] at w1 ⊢
  rw [e2] at w2 ⊢
  rw [e3] at z1 ⊢
  rw [e4] at z2 ⊢
  have n1 : A * B + d * (p * q * x3 * y3) ≠ 0 := fun h => w1 (by rw [h, zero_div])
  have n2 : A * B - d * (p * q * x3 * y3) ≠ 0 := fun h => w2 (by rw [h, zero_div])
  have n3 : A' * B' + d * (x1 * y1 * p' * q') ≠ 0 := fun h => z1 (by rw [h, zero_div])
  have n4 : A' * B' - d * (x1 * y1 * p' * q') ≠ 0 := fun h => z2 (by rw [h, zero_div])
  refine Prod.ext ?_ ?_ <;> dsimp only
  · have l : (p / A * y3 + q / B * x3) / ((A * B + d * (p * q * x3 * y3)) / (A * B)) = (p * B * y3 + q * A * x3) / (A * B + d * (p * q * x3 * y3)) := by
      field_simp
    have r : (x1 * (q' / B') + y1 * (p' / A')) / ((A' * B' + d * (x1 * y1 * p' * q')) / (A' * B')) =
        (x1 * q' * A' + y1 * p' * B') / (A' * B' + d * (x1 * y1 * p' * q')) := by field_simp
    rw [l, r, div_eq_div_iff n1 n3]
    exact kx
  · have l : (q / B * y3 - a * (p / A * x3)) / ((A * B - d * (p * q * x3 * y3)) / (A * B)) = (q * A * y3 - a * (p * B * x3)) / (A * B - d * (p * q * x3 * y3)) := by
      field_simp
    have r : (y1 * (q' / B') - a * (x1 * (p' / A'))) / ((A' * B' - d * (x1 * y1 * p' * q')) / (A' * B')) =
        (y1 * q' * A' - a * (x1 * p' * B')) / (A' * B' - d * (x1 * y1 * p' * q')) := by field_simp
    rw [l, r, div_eq_div_iff n2 n4]
    exact ky

/-- The opposite of a point. -/
theorem neg_add' {a d : K} (hc : Complete a d) {P : K × K} (hP : On a d P.1 P.2) : add a d (-P.1, P.2) P = (0, 1) := by
  have hn : On a d (-P.1) P.2 := by unfold On at *; linear_combination hP
  obtain ⟨u1, u2⟩ := den_ne hc hn hP
  unfold On at hP
  unfold add
  dsimp only at *
  refine Prod.ext ?_ ?_ <;> dsimp only
  · rw [div_eq_iff u1]; ring
  · rw [div_eq_iff u2]; linear_combination hP

/-- The points of a complete curve. -/
def Point {a d : K} (_ : Complete a d) : Type _ := {P : K × K // On a d P.1 P.2}

namespace Point
variable {a d : K} {hc : Complete a d}

/-- The commutative group of points. -/
instance : Add (Point hc) := ⟨fun P Q => ⟨add a d P.1 Q.1, on_add hc P.2 Q.2⟩⟩
instance : Zero (Point hc) := ⟨⟨(0, 1), on_zero a d⟩⟩
instance : Neg (Point hc) := ⟨fun P => ⟨(-P.1.1, P.1.2), by have := P.2; unfold On at *; linear_combination this⟩⟩
instance : AddCommGroup (Point hc) where
  add_assoc P Q R := Subtype.ext (add_assoc' hc P.2 Q.2 R.2)
  zero_add P := Subtype.ext (zero_add' a d P.1)
  add_zero P := Subtype.ext (add_zero' a d P.1)
  add_comm P Q := Subtype.ext (add_comm' a d P.1 Q.1)
  neg_add_cancel P := Subtype.ext (neg_add' hc P.2)
  nsmul := nsmulRec
  zsmul := zsmulRec

theorem coe_add (P Q : Point hc) : (P + Q).1 = add a d P.1 Q.1 := rfl
theorem coe_zero : (0 : Point hc).1 = (0, 1) := rfl

end Point
end TEd

namespace Edwards
variable {K : Type*} [Field K]

theorem add_eq_ted (d x1 y1 x2 y2 : K) : TEd.add (-1) d (x1, y1) (x2, y2) = (addX d x1 y1 x2 y2, addY d x1 y1 x2 y2) := by
  unfold TEd.add addX addY
  refine Prod.ext ?_ ?_ <;> dsimp only
  ring_nf

theorem on_iff_ted (d x y : K) : On d x y ↔ TEd.On (-1) d x y := by
  unfold On TEd.On
  constructor <;> intro h <;> linear_combination h

theorem Complete.ted {d : K} (h : Complete d) : TEd.Complete (-1) d :=
  ⟨h.two, by obtain ⟨i, hi⟩ := h.neg; exact ⟨i, by rintro rfl; simp at hi, hi⟩, h.non⟩

end Edwards
end Verif
