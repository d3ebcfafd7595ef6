import Mathlib.Data.Rat.Defs
import Mathlib.Algebra.Order.Group.Unbundled.Abs
import Mathlib.Algebra.Order.Ring.Rat
import Mathlib.Algebra.BigOperators.Group.List.Basic

/-! # What SQL's SUM and AVG mean (independent of the model) -/

namespace EulerDB.Paillier

/-- The non-NULL values of a column. -/
def present {α : Type} (rows : List (Option α)) : List α := rows.filterMap id

/-- SQL `SUM(col)`: NULL if there is no non-NULL value, else the sum of the non-NULL values. -/
def sqlSum (rows : List (Option Int)) : Option Int :=
  if present rows = [] then none else some (present rows).sum

/-- SQL `AVG(col)`: NULL if there is no non-NULL value, else the mean of the non-NULL values. -/
def sqlAvg (rows : List (Option Int)) : Option Rat :=
  if present rows = [] then none else some (((present rows).sum : Rat) / ((present rows).length : Rat))

/-- `y` is `x` rounded to 4 decimals: a multiple of 10^-4 at distance at most half of 10^-4. -/
def IsRound4 (x y : Rat) : Prop := (∃ k : Int, y = (k : Rat) / 10 ^ 4) ∧ |y - x| ≤ 1 / (2 * 10 ^ 4)

end EulerDB.Paillier
