import Verif.Model.Whitespaces
/-
Model of src/time.rs and src/parsing/time.rs.  `u8` and `usize` values are `Nat`.
-/
namespace EmailParser

/-- `src/time.rs:1-10`. -/
inductive Day where
  | monday | tuesday | wednesday | thursday | friday | saturday | sunday
deriving DecidableEq, Repr

/-- `src/time.rs:12-26`. -/
inductive Month where
  | january | february | march | april | may | june | july | august | september | october
  | november | december
deriving DecidableEq, Repr

/-- `src/time.rs:28-33`. -/
structure Zone where
  sign : Bool
  hourOffset : Nat
  minuteOffset : Nat
deriving DecidableEq, Repr

/-- `src/time.rs:35-40`. -/
structure Time where
  hour : Nat
  minute : Nat
  second : Nat
deriving DecidableEq, Repr

/-- `src/time.rs:42-46`. -/
structure TimeWithZone where
  time : Time
  zone : Zone
deriving DecidableEq, Repr

/-- `src/time.rs:48-53`. -/
structure Date where
  day : Nat
  month : Month
  year : Nat
deriving DecidableEq, Repr

/-- `src/time.rs:55-60`. -/
structure DateTime where
  dayName : Option Day
  date : Date
  time : TimeWithZone
deriving DecidableEq, Repr

/-- `src/parsing/time.rs:6-13`: the three letters, lowercased. -/
def dayNames : List (Bytes × Day) :=
  [ (b! "mon", .monday), (b! "tue", .tuesday), (b! "wed", .wednesday), (b! "thu", .thursday),
    (b! "fri", .friday), (b! "sat", .saturday), (b! "sun", .sunday) ]

/-- `src/parsing/time.rs:3-21` (`day_name`). -/
def dayName (input : Bytes) : Res Day :=
  if 3 ≤ input.length then
    match dayNames.lookup ((input.take 3).map asciiLower) with
    | some day => .ok (input.drop 3, day)
    | none => .err (.unknown "Not a valid day_name")
  else .err (.unknown "Expected day_name, but characters are missing (at least 3).")

/-- `src/parsing/time.rs:26-38`: the three letters, lowercased. -/
def monthNames : List (Bytes × Month) :=
  [ (b! "jan", .january), (b! "feb", .february), (b! "mar", .march), (b! "apr", .april),
    (b! "may", .may), (b! "jun", .june), (b! "jul", .july), (b! "aug", .august),
    (b! "sep", .september), (b! "oct", .october), (b! "nov", .november), (b! "dec", .december) ]

/-- `src/parsing/time.rs:23-46` (`month`). -/
def month (input : Bytes) : Res Month :=
  if 3 ≤ input.length then
    match monthNames.lookup ((input.take 3).map asciiLower) with
    | some month => .ok (input.drop 3, month)
    | none => .err (.unknown "Not a valid month")
  else .err (.unknown "Expected month, but characters are missing (at least 3).")

/-- `src/parsing/time.rs:48-57` (`day_of_week`). -/
def dayOfWeek (input : Bytes) : Res Day := do
  let (input, _fws) ← optional input fws
  let (input, day) ← dayName input
  let (input, ()) ← tag input (b! ",")
    "TAG ERROR: In a day_of_week, a day name must be followed by a comma."
  .ok (input, day)

/-- The number denoted by decimal digits. -/
def natOfDigits (digits : Bytes) : Nat :=
  digits.foldl (fun n d => n * 10 + (d.toNat - 48)) 0

/-- `str::parse::<usize>()` (64-bit target) and `str::parse::<u8>()` on a non-empty string of
decimal digits: fails exactly when the number does not fit. -/
def parseUnsigned (bound : Nat) (digits : Bytes) : Option Nat :=
  if natOfDigits digits < bound then some (natOfDigits digits) else none

/-- `src/parsing/time.rs:59-78` (`year`). -/
def year (input : Bytes) : Res Nat := do
  let (input, _) ← fws input
  let (input, year) ← (takeWhile1 input isDigit).mapErr (.unknown "no digit in year")
  if year.length < 4 then .err (.unknown "year is expected to have 4 digits or more")
  else
    match parseUnsigned (2 ^ 64) year with
    | none => .err (.unknown "Failed to parse year")
    | some year =>
      if year < 1990 then .err (.unknown "year must be after 1990")
      else do
        let (input, _) ← fws input
        .ok (input, year)

/-- `src/parsing/time.rs:83-87`: the optional second digit of a day. -/
def secondDigit (day : Nat) (input : Bytes) : Res Nat :=
  match digit input with
  | .ok (newInput, digit) => do
    let day ← u8 (day * 10)
    let day ← u8 (day + digit)
    .ok (newInput, day)
  | .err _ => .ok (input, day)
  | .abort k => .abort k

/-- `src/parsing/time.rs:80-93` (`day`). -/
def day (input : Bytes) : Res Nat := do
  let (input, _fws) ← optional input fws
  let (input, day) ← digit input
  let (input, day) ← secondDigit day input
  if day > 31 then .err (.unknown "day must be less than 31")
  else do
    let (input, _) ← fws input
    .ok (input, day)

/-- `src/parsing/time.rs:95-137` (`time_of_day`). -/
def timeOfDay (input : Bytes) : Res Time := do
  let (input, hour) ← twoDigits input
  if hour > 23 then .err (.unknown "There is only 24 hours in a day")
  else do
    let (input, ()) ← tag input (b! ":")
      "TAG ERROR: In a time_of_day, the hour must be followed by a colon."
    let (input, minute) ← twoDigits input
    if minute > 59 then .err (.unknown "There is only 60 minutes per hour")
    else if startsWith input (b! ":") then do
      let newInput ← sliceFrom input 1
      match twoDigits newInput with
      | .ok (newInput, second) =>
        if second > 60 then .err (.unknown "There is only 60 seconds in a minute")
        else .ok (newInput, { hour, minute, second })
      | .err _ => .ok (input, { hour, minute, second := 0 })
      | .abort k => .abort k
    else .ok (input, { hour, minute, second := 0 })

/-- `src/parsing/time.rs:142-148`: the sign of a zone. -/
def zoneSign (input : Bytes) : Res Bool :=
  match input with
  | [] => .err (.unknown "Expected more characters in zone")
  | b :: input =>
    if b == 43 then .ok (input, true)
    else if b == 45 then .ok (input, false)
    else .err (.unknown "Invalid sign character in zone")

/-- `src/parsing/time.rs:139-165` (`zone`). -/
def zone (input : Bytes) : Res Zone := do
  let (input, _fws) ← fws input
  let (input, sign) ← zoneSign input
  let (input, hourOffset) ← twoDigits input
  let (input, minuteOffset) ← twoDigits input
  if minuteOffset > 59 then .err (.unknown "zone minute_offset out of range")
  else .ok (input, { sign, hourOffset, minuteOffset })

/-- `src/parsing/time.rs:167-171` (`time`). -/
def time (input : Bytes) : Res TimeWithZone := do
  let (input, time) ← timeOfDay input
  let (input, zone) ← zone input
  .ok (input, { time, zone })

/-- `src/parsing/time.rs:173-178` (`date`). -/
def date (input : Bytes) : Res Date := do
  let (input, day) ← day input
  let (input, month) ← month input
  let (input, year) ← year input
  .ok (input, { day, month, year })

/-- `src/parsing/time.rs:180-193` (`date_time`). -/
def dateTime (c : Cfg) (input : Bytes) : Res DateTime := do
  let (input, dayName) ← optional input dayOfWeek
  let (input, date) ← date input
  let (input, time) ← time input
  let input ← skipCfws c input
  .ok (input, { dayName, date, time })

end EmailParser
