import Verif.Model.F32
/-!
# What the LEGO EV3 shows under `/sys/class`, and how a reader of the manual reads it

Nothing here mentions the code of the port.
-/
namespace Snek.Ev3

/-- The text of a file. -/
abbrev Text := List Char

/-- A device directory, `/sys/class/lego-sensor/sensorN` or `/sys/class/tacho-motor/motorN`. The kernel numbers the directories in the order
in which the devices are found and does not use a number again. -/
structure Dev where
  /-- whether the device is still attached -/
  alive : Bool
  /-- the file `address`: the port -/
  address : Text
  /-- the file `driver_name` -/
  driver : Text
  /-- the other files -/
  files : Text → Option Text

/-- All the devices of one class there have been, by number. -/
abbrev World := List Dev

/-- A file of a device. -/
def Dev.attr (d : Dev) (name : Text) : Option Text :=
  if name = "address".toList then some d.address
  else if name = "driver_name".toList then some d.driver
  else d.files name

/-- What can happen at any moment. -/
inductive Ev
  /-- a device is attached -/
  | plug (address driver : Text) (files : Text → Option Text)
  /-- device `n` is detached -/
  | unplug (n : Nat)
  /-- a file of device `n` changes: a reading, or the effect of a command -/
  | put (n : Nat) (file text : Text)

/-- Its effect. -/
def event (w : World) : Ev → World
  | .plug a d f => w ++ [⟨true, a, d, f⟩]
  | .unplug n => w.modify n fun d => { d with alive := false }
  | .put n f t => w.modify n fun d => { d with files := fun g => if g = f then some t else d.files g }

/-- Reasons for a system call to fail. -/
inductive Errno
  | noent
  | intr
  | other (code : Nat)
  deriving DecidableEq

/-- A name in a class directory: `.` or `..`, `sensorN`/`motorN`, anything else. -/
inductive Entry
  | dot
  | dev (n : Nat)
  | other
  deriving DecidableEq

/-- What the world does up to and in one system call: events, a failure for a reason of its own, and the order in which a directory is listed. -/
structure Slot where
  evs : List Ev := []
  fail : Option Errno := none
  names : List Entry := []

/-- The world after `k` system calls. -/
def worldAt (w : World) (sched : List Slot) (k : Nat) : World := ((sched.take k).flatMap Slot.evs).foldl event w

/-- At some moment of the schedule, device `n` is attached and its file `name` reads `t`. -/
def Shown (w : World) (sched : List Slot) (n : Nat) (name t : Text) : Prop :=
  ∃ k d, (worldAt w sched k)[n]? = some d ∧ d.alive = true ∧ d.attr name = some t

/-- The decimal digits of a number. -/
def decNat (n : Nat) : Text :=
  if h : n < 10 then [Char.ofNat (48 + n)] else decNat (n / 10) ++ [Char.ofNat (48 + n % 10)]
  termination_by n
  decreasing_by omega

/-- The decimal text of an integer. -/
def dec (i : Int) : Text := if i < 0 then '-' :: decNat i.natAbs else decNat i.natAbs

/-- A decimal digit. -/
def isDig (c : Char) : Bool := '0' ≤ c ∧ c ≤ '9'

/-- The value of a string of digits. -/
def digVal (t : Text) : Nat := t.foldl (fun a c => a * 10 + (c.toNat - 48)) 0

/-- The integer at the beginning of a text: blanks, a sign, digits (C11 7.21.6.2, `%d`). -/
def intAt (t : Text) : Option Int :=
  let u := t.dropWhile fun c => c = ' ' ∨ c = '\n' ∨ c = '\t'
  let neg := u.head? = some '-'
  let v := if u.head? = some '-' ∨ u.head? = some '+' then u.drop 1 else u
  let ds := v.takeWhile isDig
  if ds = [] then none else some (if neg then -(digVal ds : Int) else digVal ds)

/-- A file with the text `t` gives the number `k`: it is the integer at the beginning of the first eleven characters, as many as a number of 32 bits
can have. -/
def Number (t : Text) (k : Int) : Prop := intAt (t.take 11) = some k

/-- The value of a sensor in the language. -/
inductive Val
  | none
  | num (f : BitVec 32)
  /-- a colour of the manual, by its number: black, blue, green, yellow, red, white, brown -/
  | color (k : Nat)
  | rgb (r g b : BitVec 32)
  deriving DecidableEq

/-- The address of input port `p`. -/
def inPort (p : Int) : Text := "ev3-ports:in".toList ++ dec p ++ ['\n']

/-- `k / m` as a `float`. -/
def ratio (k : Int) (m : Int) : BitVec 32 := fdiv (intToF k) (intToF m)

/-- How the value of a sensor is read from its files: `shows name t` says that the file `name` reads `t`. -/
inductive Decodes (shows : Text → Text → Prop) (driver : Text) : Val → Prop
  /-- the touch sensor: 0 or 1 -/
  | touch {t k} : driver = "lego-ev3-touch\n".toList → shows "value0".toList t → Number t k → k = 0 ∨ k = 1 →
      Decodes shows driver (.num (intToF k))
  /-- the ultrasonic sensor: centimetres, from tenths -/
  | near {t k} : driver = "lego-ev3-us\n".toList → shows "value0".toList t → Number t k → k ≠ 2550 →
      Decodes shows driver (.num (ratio k 10))
  /-- nothing in sight -/
  | far {t} : driver = "lego-ev3-us\n".toList → shows "value0".toList t → Number t 2550 →
      Decodes shows driver (.num 0x7f800000)
  /-- the colour sensor measuring light: a fraction, from percents -/
  | light {m t k} : driver = "lego-ev3-color\n".toList → shows "mode".toList m → (m = "COL-REFLECT\n".toList ∨ m = "COL-AMBIENT\n".toList) →
      shows "value0".toList t → Number t k → 0 ≤ k → k ≤ 100 → Decodes shows driver (.num (ratio k 100))
  /-- the colour sensor naming a colour -/
  | color {m t} {k : Nat} : driver = "lego-ev3-color\n".toList → shows "mode".toList m → m = "COL-COLOR\n".toList →
      shows "value0".toList t → Number t k → 1 ≤ k → k ≤ 7 → Decodes shows driver (.color k)
  /-- no colour -/
  | dark {m t} : driver = "lego-ev3-color\n".toList → shows "mode".toList m → m = "COL-COLOR\n".toList →
      shows "value0".toList t → Number t 0 → Decodes shows driver .none
  /-- the colour sensor giving the three components -/
  | rgb {m tr tg tb r g b} : driver = "lego-ev3-color\n".toList → shows "mode".toList m → m = "RGB-RAW\n".toList →
      shows "value0".toList tr → shows "value1".toList tg → shows "value2".toList tb →
      Number tr r → Number tg g → Number tb b →
      0 ≤ r → r ≤ 1020 → 0 ≤ g → g ≤ 1020 → 0 ≤ b → b ≤ 1020 → Decodes shows driver (.rgb (ratio r 1020) (ratio g 1020) (ratio b 1020))

end Snek.Ev3
