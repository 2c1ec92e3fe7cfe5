/-
Model of bd-time (bd-time/src/lib.rs).

An `OffsetDateTime` is its Unix time in nanoseconds (an `Int`; the offset does not matter to the
functions modelled).  A `time::Duration` is a number of nanoseconds.  `from_unix_timestamp` fails outside
the years -9999 to 9999 (the time crate without `large-dates`); the `unwrap` on it is a panic, modelled
as `none`.
-/
namespace Verif.Time

def nano : Int := 1000000000

/-- Range of seconds accepted by `OffsetDateTime::from_unix_timestamp`. -/
def minSec : Int := -377705116800
def maxSec : Int := 253402300799

/-- `OffsetDateTime::from_unix_timestamp(s).unwrap()`. -/
def fromUnix (s : Int) : Option Int :=
  if minSec ≤ s ∧ s ≤ maxSec then some (s * nano) else none

/-- `unix_timestamp`: seconds, rounded towards the past (`/` on `Int` rounds down for a positive
divisor, `%` is the non-negative remainder). -/
def unixTimestamp (t : Int) : Int := t / nano

/-- `Duration::whole_seconds`: rounded towards zero. -/
def wholeSeconds (d : Int) : Int := d.tdiv nano
/-- `Duration::subsec_nanoseconds`: with the sign of the duration. -/
def subsecNanos (d : Int) : Int := d.tmod nano

/-- `OffsetDateTimeExt::floor` (lib.rs:68-74); `rem_euclid(0)` panics. -/
def floor (t interval : Int) : Option Int :=
  if wholeSeconds interval = 0 then none
  else fromUnix (unixTimestamp t - unixTimestamp t % wholeSeconds interval)

/-- `OffsetDateTimeExt::ceil` (lib.rs:76-88). -/
def ceil (t interval : Int) : Option Int :=
  if wholeSeconds interval = 0 then none
  else if unixTimestamp t % wholeSeconds interval = 0 then some t
  else fromUnix (unixTimestamp t + wholeSeconds interval - unixTimestamp t % wholeSeconds interval)

/-- `unix_timestamp_ms` (lib.rs:64-66); `nanosecond()` is the non-negative sub-second part. -/
def unixTimestampMs (t : Int) : Int := unixTimestamp t * 1000 + t % nano / 1000000

/-- A protobuf `Timestamp` or `Duration`. -/
structure Proto where
  seconds : Int
  nanos : Int
  deriving DecidableEq, Repr

/-- `OffsetDateTimeExt::into_proto` (lib.rs:49-61). -/
def timeToProto (t : Int) : Proto := ⟨unixTimestamp t, t - unixTimestamp t * nano⟩

/-- `TimestampExt::to_offset_date_time` (lib.rs:99-104); negative nanos count as zero. -/
def protoToTime (p : Proto) : Option Int :=
  (fromUnix p.seconds).map (· + (if p.nanos < 0 then 0 else p.nanos))

/-- `ToProtoDuration for time::Duration` (lib.rs:212-221). -/
def durToProto (d : Int) : Proto := ⟨wholeSeconds d, subsecNanos d⟩

/-- `ProtoDurationExt::to_time_duration` (lib.rs:193-195). -/
def protoToDur (p : Proto) : Int := p.seconds * nano + p.nanos

/-- `to_std_duration_absolute` (lib.rs:175-180). -/
def protoToAbs (p : Proto) : Nat := p.seconds.natAbs * 1000000000 + p.nanos.natAbs

/-- `to_std_duration_checked` (lib.rs:182-191). -/
def protoToChecked (p : Proto) : Option Nat :=
  if p.seconds < 0 then none else if p.nanos < 0 then none else some (protoToAbs p)

end Verif.Time
