import Verif.Model.Labeling

/-!
Property theorem C75: conversion of times (`/repo/mizarlabs/transformers/utils.py` lines 17-29).
-/

namespace Mizar.Props
open Mizar.Lab

/-- C75 (rounding): the result for a time in nanoseconds is the one number of whole milliseconds at most a millisecond
before it, also before 1970. -/
theorem C75_floor (t ms : ℤ) : convertToTimestamp (some t) = ms ↔ 1000000 * ms ≤ t ∧ t < 1000000 * (ms + 1) := by
  unfold convertToTimestamp
  rw [Option.getD_some]
  omega

/-- C75 (order): the conversion keeps the order; of two times it separates those with the start of a millisecond after
the first and at or before the second. -/
theorem C75_order (t u : ℤ) (h : t ≤ u) : convertToTimestamp (some t) ≤ convertToTimestamp (some u) ∧
    (convertToTimestamp (some t) < convertToTimestamp (some u) ↔ ∃ ms : ℤ, t < 1000000 * ms ∧ 1000000 * ms ≤ u) := by
  unfold convertToTimestamp
  rw [Option.getD_some, Option.getD_some]
  refine ⟨by omega, fun h1 => ⟨u / 1000000, by omega, by omega⟩, ?_⟩
  rintro ⟨ms, h1, h2⟩
  omega

/-- C75 (round trip): a time of whole milliseconds comes back. -/
theorem C75_round_trip (ms : ℤ) : convertToTimestamp (some (1000000 * ms)) = ms := by
  rw [C75_floor]; omega

/-- C75 (missing times): the result is negative and less than that of every time from 1970 on. -/
theorem C75_missing (t : ℤ) (h : 0 ≤ t) : convertToTimestamp none < 0 ∧ 0 ≤ convertToTimestamp (some t) := by
  unfold convertToTimestamp natInt
  rw [Option.getD_some, Option.getD_none]
  refine ⟨by decide, by omega⟩

/-- C75 (earliest times): the missing time comes out as no later than any time that can be represented, and strictly
before those after 21 September 1677, 00:12:43.146. -/
theorem C75_missing_least (t : ℤ) (h : -9223372036854775807 ≤ t) : convertToTimestamp none ≤ convertToTimestamp (some t) ∧
    (convertToTimestamp none < convertToTimestamp (some t) ↔ -9223372036854000000 ≤ t) := by
  unfold convertToTimestamp natInt
  rw [Option.getD_some, Option.getD_none]
  omega

section Examples

/-- Half a millisecond before 1970. -/
example : convertToTimestamp (some (-500000)) = -1 := by rw [C75_floor]; omega

example : convertToTimestamp (some 1600000000123456789) = 1600000000123 := by rw [C75_floor]; omega

end Examples

end Mizar.Props
