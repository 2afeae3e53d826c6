import Mathlib.Tactic.LinearCombination

/-!
Three polynomial identities behind the addition law of a twisted Edwards curve. The curve equation is used in the form
`x² y² = c (y² - x² - 1)`, where `c` is the inverse of the curve constant `d`. The multipliers were found by polynomial
division; `ring` checks them.
-/

namespace Verif

theorem edwards_closed {F : Type*} [CommRing F] (c x1 y1 x2 y2 : F)
    (h1 : x1 ^ 2 * y1 ^ 2 = c * (y1 ^ 2 - x1 ^ 2 - 1))
    (h2 : x2 ^ 2 * y2 ^ 2 = c * (y2 ^ 2 - x2 ^ 2 - 1))
    : c * (c ^ 2 * (y1 * y2 + x1 * x2) ^ 2 * (c + x1 * x2 * y1 * y2) ^ 2
        - c ^ 2 * (x1 * y2 + x2 * y1) ^ 2 * (c - x1 * x2 * y1 * y2) ^ 2
        - (c + x1 * x2 * y1 * y2) ^ 2 * (c - x1 * x2 * y1 * y2) ^ 2)
      = c ^ 4 * (x1 * y2 + x2 * y1) ^ 2 * (y1 * y2 + x1 * x2) ^ 2 := by
  linear_combination
    (- x1^2*y1^2*x2^4*y2^4*c + x1^2*x2^4*y2^4*c^2 + x1^2*x2^4*y2^2*c^3 - x1^2*x2^2*y2^4*c^3 -
    y1^2*x2^4*y2^4*c^2 - y1^2*x2^4*y2^2*c^3 + y1^2*x2^2*y2^4*c^3 + 2*x2^4*y2^4*c^3 + x2^4*y2^4*c^2 +
    2*x2^4*y2^2*c^4 - x2^4*c^4 - 2*x2^2*y2^4*c^4 + 4*x2^2*y2^2*c^4 + 2*x2^2*y2^2*c^3 - y2^4*c^4) * h1 +
    (- x1^4*x2^2*y2^2*c^3 - 2*x1^2*x2^2*y2^2*c^4 - 2*x1^2*x2^2*y2^2*c^3 + x1^2*x2^2*c^4 - x1^2*y2^2*c^4 -
    y1^4*x2^2*y2^2*c^3 + 2*y1^2*x2^2*y2^2*c^4 + 2*y1^2*x2^2*y2^2*c^3 - y1^2*x2^2*c^4 + y1^2*y2^2*c^4 -
    2*x2^2*y2^2*c^4 - x2^2*y2^2*c^3 + x2^2*c^4 - y2^2*c^4 - c^4) * h2

theorem edwards_assoc_x {F : Type*} [CommRing F] (c x1 y1 x2 y2 x3 y3 : F)
    (h1 : x1 ^ 2 * y1 ^ 2 = c * (y1 ^ 2 - x1 ^ 2 - 1))
    (h2 : x2 ^ 2 * y2 ^ 2 = c * (y2 ^ 2 - x2 ^ 2 - 1))
    (h3 : x3 ^ 2 * y3 ^ 2 = c * (y3 ^ 2 - x3 ^ 2 - 1))
    : (c * ((x1 * y2 + x2 * y1) * (c - x1 * x2 * y1 * y2) * y3 + (y1 * y2 + x1 * x2) * (c + x1 * x2 * y1 * y2) * x3))
        * ((c + x2 * x3 * y2 * y3) * (c - x2 * x3 * y2 * y3) + c * (x2 * y3 + x3 * y2) * (y2 * y3 + x2 * x3) * x1 * y1)
      = (c * (y1 * (x2 * y3 + x3 * y2) * (c - x2 * x3 * y2 * y3) + x1 * (y2 * y3 + x2 * x3) * (c + x2 * x3 * y2 * y3)))
        * ((c + x1 * x2 * y1 * y2) * (c - x1 * x2 * y1 * y2) + c * (x1 * y2 + x2 * y1) * (y1 * y2 + x1 * x2) * x3 * y3) := by
  linear_combination
    (x1*x2^4*y2^3*x3^2*y3*c + x1*x2^4*y2*x3^2*y3*c^2 + x1*x2^3*y2^4*x3*y3^2*c + x1*x2^3*y2^2*x3^3*c^2 +
    x1*x2^3*y2^2*x3*c^2 - x1*x2^2*y2^3*y3^3*c^2 + x1*x2^2*y2^3*y3*c^2 - x1*x2*y2^4*x3*y3^2*c^2 -
    y1*x2^4*y2^3*x3*y3^2*c - y1*x2^4*y2*x3*y3^2*c^2 - y1*x2^3*y2^4*x3^2*y3*c - y1*x2^3*y2^2*y3^3*c^2 +
    y1*x2^3*y2^2*y3*c^2 + y1*x2^2*y2^3*x3^3*c^2 + y1*x2^2*y2^3*x3*c^2 + y1*x2*y2^4*x3^2*y3*c^2) * h1 +
    (- x1^3*x2^2*y2*x3^2*y3*c^2 - x1^3*x2*y2^2*x3*y3^2*c^2 - x1^3*x2*x3^3*y3^2*c^2 - x1^3*x2*x3^3*c^3 +
    x1^3*x2*x3*y3^2*c^3 - x1^3*x2*x3*c^3 - x1^3*y2*x3^2*y3^3*c^2 - x1^3*y2*x3^2*y3*c^3 + x1^3*y2*y3^3*c^3 -
    x1^3*y2*y3*c^3 - x1^2*y1*x2^2*y2*x3^3*y3^2*c + x1^2*y1*x2^2*y2*x3*y3^2*c^2 + x1^2*y1*x2*y2^2*x3^2*y3^3*c +
    x1^2*y1*x2*y2^2*x3^2*y3*c^2 - x1^2*y1*x2*x3^2*y3^3*c^2 - x1^2*y1*x2*x3^2*y3*c^3 + x1^2*y1*x2*y3^3*c^3 -
    x1^2*y1*x2*y3*c^3 - x1^2*y1*y2*x3^3*y3^2*c^2 - x1^2*y1*y2*x3^3*c^3 + x1^2*y1*y2*x3*y3^2*c^3 -
    x1^2*y1*y2*x3*c^3 + x1*y1^2*x2^2*y2*x3^2*y3^3*c + x1*y1^2*x2^2*y2*x3^2*y3*c^2 -
    x1*y1^2*x2*y2^2*x3^3*y3^2*c + x1*y1^2*x2*y2^2*x3*y3^2*c^2 + x1*y1^2*x2*x3^3*y3^2*c^2 + x1*y1^2*x2*x3^3*c^3
    - x1*y1^2*x2*x3*y3^2*c^3 + x1*y1^2*x2*x3*c^3 + x1*y1^2*y2*x3^2*y3^3*c^2 + x1*y1^2*y2*x3^2*y3*c^3 -
    x1*y1^2*y2*y3^3*c^3 + x1*y1^2*y2*y3*c^3 - x1*x2^2*y2*x3^2*y3*c^2 - x1*x2*y2^2*x3*y3^2*c^2 -
    x1*x2*x3^3*y3^2*c^2 - x1*x2*x3^3*c^3 + x1*x2*x3*y3^2*c^3 - x1*x2*x3*c^3 - x1*y2*x3^2*y3^3*c^2 -
    x1*y2*x3^2*y3*c^3 + x1*y2*y3^3*c^3 - x1*y2*y3*c^3 - y1^3*x2^2*y2*x3*y3^2*c^2 - y1^3*x2*y2^2*x3^2*y3*c^2 +
    y1^3*x2*x3^2*y3^3*c^2 + y1^3*x2*x3^2*y3*c^3 - y1^3*x2*y3^3*c^3 + y1^3*x2*y3*c^3 + y1^3*y2*x3^3*y3^2*c^2 +
    y1^3*y2*x3^3*c^3 - y1^3*y2*x3*y3^2*c^3 + y1^3*y2*x3*c^3 + y1*x2^2*y2*x3*y3^2*c^2 + y1*x2*y2^2*x3^2*y3*c^2
    - y1*x2*x3^2*y3^3*c^2 - y1*x2*x3^2*y3*c^3 + y1*x2*y3^3*c^3 - y1*x2*y3*c^3 - y1*y2*x3^3*y3^2*c^2 -
    y1*y2*x3^3*c^3 + y1*y2*x3*y3^2*c^3 - y1*y2*x3*c^3) * h2 +
    (x1^3*x2^3*x3*c^3 + x1^3*x2^2*y2*y3*c^3 - x1^3*x2*y2^2*x3*c^3 + x1^3*x2*x3*c^3 - x1^3*y2^3*y3*c^3 +
    x1^3*y2*y3*c^3 + x1^2*y1*x2^3*y3*c^3 + x1^2*y1*x2^2*y2*x3*c^3 + x1^2*y1*x2^2*y2*x3*c^2 -
    x1^2*y1*x2*y2^2*y3*c^3 - x1^2*y1*x2*y2^2*y3*c^2 + x1^2*y1*x2*y3*c^3 - x1^2*y1*y2^3*x3*c^3 +
    x1^2*y1*y2*x3*c^3 - x1*y1^2*x2^3*x3*c^3 - x1*y1^2*x2^2*y2*y3*c^3 - x1*y1^2*x2^2*y2*y3*c^2 +
    x1*y1^2*x2*y2^2*x3*c^3 + x1*y1^2*x2*y2^2*x3*c^2 - x1*y1^2*x2*x3*c^3 + x1*y1^2*y2^3*y3*c^3 -
    x1*y1^2*y2*y3*c^3 + x1*x2^3*x3*c^3 + x1*x2^2*y2*y3*c^3 - x1*x2*y2^2*x3*c^3 + x1*x2*x3*c^3 - x1*y2^3*y3*c^3
    + x1*y2*y3*c^3 - y1^3*x2^3*y3*c^3 - y1^3*x2^2*y2*x3*c^3 + y1^3*x2*y2^2*y3*c^3 - y1^3*x2*y3*c^3 +
    y1^3*y2^3*x3*c^3 - y1^3*y2*x3*c^3 + y1*x2^3*y3*c^3 + y1*x2^2*y2*x3*c^3 - y1*x2*y2^2*y3*c^3 + y1*x2*y3*c^3
    - y1*y2^3*x3*c^3 + y1*y2*x3*c^3) * h3

theorem edwards_assoc_y {F : Type*} [CommRing F] (c x1 y1 x2 y2 x3 y3 : F)
    (h1 : x1 ^ 2 * y1 ^ 2 = c * (y1 ^ 2 - x1 ^ 2 - 1))
    (h2 : x2 ^ 2 * y2 ^ 2 = c * (y2 ^ 2 - x2 ^ 2 - 1))
    (h3 : x3 ^ 2 * y3 ^ 2 = c * (y3 ^ 2 - x3 ^ 2 - 1))
    : (c * ((y1 * y2 + x1 * x2) * (c + x1 * x2 * y1 * y2) * y3 + (x1 * y2 + x2 * y1) * (c - x1 * x2 * y1 * y2) * x3))
        * ((c + x2 * x3 * y2 * y3) * (c - x2 * x3 * y2 * y3) - c * (x2 * y3 + x3 * y2) * (y2 * y3 + x2 * x3) * x1 * y1)
      = (c * (y1 * (y2 * y3 + x2 * x3) * (c + x2 * x3 * y2 * y3) + x1 * (x2 * y3 + x3 * y2) * (c - x2 * x3 * y2 * y3)))
        * ((c + x1 * x2 * y1 * y2) * (c - x1 * x2 * y1 * y2) - c * (x1 * y2 + x2 * y1) * (y1 * y2 + x1 * x2) * x3 * y3) := by
  linear_combination
    (- x1*x2^4*y2^3*x3*y3^2*c - x1*x2^4*y2*x3*y3^2*c^2 - x1*x2^3*y2^4*x3^2*y3*c - x1*x2^3*y2^2*y3^3*c^2 +
    x1*x2^3*y2^2*y3*c^2 + x1*x2^2*y2^3*x3^3*c^2 + x1*x2^2*y2^3*x3*c^2 + x1*x2*y2^4*x3^2*y3*c^2 +
    y1*x2^4*y2^3*x3^2*y3*c + y1*x2^4*y2*x3^2*y3*c^2 + y1*x2^3*y2^4*x3*y3^2*c + y1*x2^3*y2^2*x3^3*c^2 +
    y1*x2^3*y2^2*x3*c^2 - y1*x2^2*y2^3*y3^3*c^2 + y1*x2^2*y2^3*y3*c^2 - y1*x2*y2^4*x3*y3^2*c^2) * h1 +
    (x1^3*x2^2*y2*x3*y3^2*c^2 + x1^3*x2*y2^2*x3^2*y3*c^2 - x1^3*x2*x3^2*y3^3*c^2 - x1^3*x2*x3^2*y3*c^3 +
    x1^3*x2*y3^3*c^3 - x1^3*x2*y3*c^3 - x1^3*y2*x3^3*y3^2*c^2 - x1^3*y2*x3^3*c^3 + x1^3*y2*x3*y3^2*c^3 -
    x1^3*y2*x3*c^3 - x1^2*y1*x2^2*y2*x3^2*y3^3*c - x1^2*y1*x2^2*y2*x3^2*y3*c^2 + x1^2*y1*x2*y2^2*x3^3*y3^2*c -
    x1^2*y1*x2*y2^2*x3*y3^2*c^2 - x1^2*y1*x2*x3^3*y3^2*c^2 - x1^2*y1*x2*x3^3*c^3 + x1^2*y1*x2*x3*y3^2*c^3 -
    x1^2*y1*x2*x3*c^3 - x1^2*y1*y2*x3^2*y3^3*c^2 - x1^2*y1*y2*x3^2*y3*c^3 + x1^2*y1*y2*y3^3*c^3 -
    x1^2*y1*y2*y3*c^3 + x1*y1^2*x2^2*y2*x3^3*y3^2*c - x1*y1^2*x2^2*y2*x3*y3^2*c^2 -
    x1*y1^2*x2*y2^2*x3^2*y3^3*c - x1*y1^2*x2*y2^2*x3^2*y3*c^2 + x1*y1^2*x2*x3^2*y3^3*c^2 +
    x1*y1^2*x2*x3^2*y3*c^3 - x1*y1^2*x2*y3^3*c^3 + x1*y1^2*x2*y3*c^3 + x1*y1^2*y2*x3^3*y3^2*c^2 +
    x1*y1^2*y2*x3^3*c^3 - x1*y1^2*y2*x3*y3^2*c^3 + x1*y1^2*y2*x3*c^3 + x1*x2^2*y2*x3*y3^2*c^2 +
    x1*x2*y2^2*x3^2*y3*c^2 - x1*x2*x3^2*y3^3*c^2 - x1*x2*x3^2*y3*c^3 + x1*x2*y3^3*c^3 - x1*x2*y3*c^3 -
    x1*y2*x3^3*y3^2*c^2 - x1*y2*x3^3*c^3 + x1*y2*x3*y3^2*c^3 - x1*y2*x3*c^3 + y1^3*x2^2*y2*x3^2*y3*c^2 +
    y1^3*x2*y2^2*x3*y3^2*c^2 + y1^3*x2*x3^3*y3^2*c^2 + y1^3*x2*x3^3*c^3 - y1^3*x2*x3*y3^2*c^3 + y1^3*x2*x3*c^3
    + y1^3*y2*x3^2*y3^3*c^2 + y1^3*y2*x3^2*y3*c^3 - y1^3*y2*y3^3*c^3 + y1^3*y2*y3*c^3 - y1*x2^2*y2*x3^2*y3*c^2
    - y1*x2*y2^2*x3*y3^2*c^2 - y1*x2*x3^3*y3^2*c^2 - y1*x2*x3^3*c^3 + y1*x2*x3*y3^2*c^3 - y1*x2*x3*c^3 -
    y1*y2*x3^2*y3^3*c^2 - y1*y2*x3^2*y3*c^3 + y1*y2*y3^3*c^3 - y1*y2*y3*c^3) * h2 +
    (x1^3*x2^3*y3*c^3 + x1^3*x2^2*y2*x3*c^3 - x1^3*x2*y2^2*y3*c^3 + x1^3*x2*y3*c^3 - x1^3*y2^3*x3*c^3 +
    x1^3*y2*x3*c^3 + x1^2*y1*x2^3*x3*c^3 + x1^2*y1*x2^2*y2*y3*c^3 + x1^2*y1*x2^2*y2*y3*c^2 -
    x1^2*y1*x2*y2^2*x3*c^3 - x1^2*y1*x2*y2^2*x3*c^2 + x1^2*y1*x2*x3*c^3 - x1^2*y1*y2^3*y3*c^3 +
    x1^2*y1*y2*y3*c^3 - x1*y1^2*x2^3*y3*c^3 - x1*y1^2*x2^2*y2*x3*c^3 - x1*y1^2*x2^2*y2*x3*c^2 +
    x1*y1^2*x2*y2^2*y3*c^3 + x1*y1^2*x2*y2^2*y3*c^2 - x1*y1^2*x2*y3*c^3 + x1*y1^2*y2^3*x3*c^3 -
    x1*y1^2*y2*x3*c^3 + x1*x2^3*y3*c^3 + x1*x2^2*y2*x3*c^3 - x1*x2*y2^2*y3*c^3 + x1*x2*y3*c^3 - x1*y2^3*x3*c^3
    + x1*y2*x3*c^3 - y1^3*x2^3*x3*c^3 - y1^3*x2^2*y2*y3*c^3 + y1^3*x2*y2^2*x3*c^3 - y1^3*x2*x3*c^3 +
    y1^3*y2^3*y3*c^3 - y1^3*y2*y3*c^3 + y1*x2^3*x3*c^3 + y1*x2^2*y2*y3*c^3 - y1*x2*y2^2*x3*c^3 + y1*x2*x3*c^3
    - y1*y2^3*y3*c^3 + y1*y2*y3*c^3) * h3

end Verif
