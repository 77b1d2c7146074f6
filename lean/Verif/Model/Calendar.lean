import Verif.Model.Varint
/-!
# The calendar functions of `std::chrono` that the timestamp codec uses

Library code, modelled by its specification (C++ [time.cal]): the proleptic Gregorian calendar, day 0
is 1970-01-01. Only years from 1 on are needed (`timestamp_codec.hpp` 80, 163).
-/
namespace HppProto

/-- `year::is_leap` (library). -/
def isLeap (y : Nat) : Bool := y % 4 = 0 && (y % 100 ≠ 0 || y % 400 = 0)

/-- `year_month_day_last{y/m}.day()` (library), used by `ymd.ok()`, `timestamp_codec.hpp` 212. -/
def lastDay (y m : Nat) : Nat :=
  if m = 2 then (if isLeap y then 29 else 28) else if m = 4 ∨ m = 6 ∨ m = 9 ∨ m = 11 then 30 else 31

/-- Days of the year before the first of month `m` (library). -/
def daysBefore (y m : Nat) : Nat :=
  [0, 31, 59, 90, 120, 151, 181, 212, 243, 273, 304, 334].getD (m - 1) 0 + (if isLeap y ∧ 2 < m then 1 else 0)

/-- `sys_days(ymd)` (library), for `y ≥ 1`; `timestamp_codec.hpp` 215. -/
def sysDays (y m d : Nat) : Int :=
  let p := y - 1
  ((365 * p + p / 4 + p / 400 + daysBefore y m + (d - 1) : Nat) : Int) - (p / 100 : Nat) - 719162

/-- The month of a day of the year (0-based): the last month that starts at or before it (library). -/
def monthOf (y doy : Nat) : Nat :=
  if doy < daysBefore y 2 then 1 else if doy < daysBefore y 3 then 2 else if doy < daysBefore y 4 then 3
  else if doy < daysBefore y 5 then 4 else if doy < daysBefore y 6 then 5 else if doy < daysBefore y 7 then 6
  else if doy < daysBefore y 8 then 7 else if doy < daysBefore y 9 then 8 else if doy < daysBefore y 10 then 9
  else if doy < daysBefore y 11 then 10 else if doy < daysBefore y 12 then 11 else 12

/-- `year_month_day{days}` (library), for days from 0001-01-01 on; `timestamp_codec.hpp` 169. -/
def civil (z : Int) : Nat × Nat × Nat :=
  let n := (z + 719162).toNat
  let n400 := n / 146097
  let r := n % 146097
  let n100 := min 3 (r / 36524)
  let r := r - n100 * 36524
  let n4 := r / 1461
  let r := r % 1461
  let n1 := min 3 (r / 365)
  let doy := r - n1 * 365
  let y := 400 * n400 + 100 * n100 + 4 * n4 + n1 + 1
  let m := monthOf y doy
  (y, m, doy - daysBefore y m + 1)

end HppProto
