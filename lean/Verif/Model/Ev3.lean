import Verif.Spec.Ev3
/-!
# The sensors of the LEGO EV3 (`ports/ev3/sensors.c`, `ports/ev3/utils.c`)

The code talks to the kernel by files. Every system call it makes takes one `Slot` of a schedule, in which the world can change in any way before the
call and the call can fail; an exhausted schedule is a quiet world. `close` cannot fail in a way that matters and takes no slot.
Simplifications: a descriptor is named by what it refers to; the texts contain no NUL; a name `sensorN` stands for its number `N`, so that the `sprintf` and
the `sscanf` of names are not modelled; the messages of errors are not modelled, only that `snek_error` was called.
-/
namespace Snek.Ev3

/-- An open descriptor. -/
inductive Fd
  | classDir
  | dev (n : Nat)
  | file (n : Nat) (name : Text)
  deriving DecidableEq

/-- The process and the kernel. -/
structure Sys where
  world : World
  sched : List Slot
  /-- open descriptors, the latest first -/
  fds : List Fd
  /-- `snek_error` has been called: the program is aborted -/
  err : Bool
  /-- what has been written to devices: number, file, text -/
  wrote : List (Nat × Text × Text)

/-- A system call takes place: the world moves on. -/
def Sys.call (s : Sys) : Slot × Sys :=
  match s.sched with
  | [] => ({}, s)
  | sl :: r => (sl, { s with sched := r, world := sl.evs.foldl event s.world })

/-- `snek_error`. -/
def Sys.error (s : Sys) : Sys := { s with err := true }

/-- `close`. -/
def Sys.close (s : Sys) (f : Fd) : Sys := { s with fds := s.fds.erase f }

/-- `open("/sys/class/…/sensorN")` and `openat(dir, "sensorN")` -/
def Sys.openDev (s : Sys) (n : Nat) : Except Errno Unit × Sys :=
  let (sl, s) := s.call
  match sl.fail with
  | some e => (.error e, s)
  | none =>
    match s.world[n]? with
    | some d => if d.alive then (.ok (), { s with fds := .dev n :: s.fds }) else (.error .noent, s)
    | none => (.error .noent, s)

/-- `openat(dev, name)` -/
def Sys.openFile (s : Sys) (n : Nat) (name : Text) : Except Errno Unit × Sys :=
  let (sl, s) := s.call
  match sl.fail with
  | some e => (.error e, s)
  | none =>
    match s.world[n]? with
    | some d =>
      if d.alive ∧ (d.attr name).isSome then (.ok (), { s with fds := .file n name :: s.fds }) else (.error .noent, s)
    | none => (.error .noent, s)

/-- The `read` of a file of a device: the beginning of what it shows now; an error if the device is gone (`ENODEV`, 19). -/
def Sys.readNow (s : Sys) (n : Nat) (name : Text) (size : Nat) : Except Errno Text :=
  match s.world[n]? with
  | some d =>
    if d.alive then
      match d.attr name with
      | some t => .ok (t.take size)
      | none => .error (.other 19)
    else .error (.other 19)
  | none => .error (.other 19)

/-- ports/ev3/utils.c:37-46 `read_noeintr`: read again while interrupted. The first argument is the schedule. -/
def readLoop (n : Nat) (name : Text) (size : Nat) : List Slot → Sys → Except Errno Text × Sys
  | [], s => ({ s with sched := [] }.readNow n name size, { s with sched := [] })
  | sl :: r, s =>
    let s := { s with sched := r, world := sl.evs.foldl event s.world }
    match sl.fail with
    | some .intr => readLoop n name size r s
    | some e => (.error e, s)
    | none => (s.readNow n name size, s)

/-- ports/ev3/utils.c:70-81 `sysfs_read` -/
def Sys.read (s : Sys) (n : Nat) (name : Text) (size : Nat) : Except Errno Text × Sys :=
  match s.openFile n name with
  | (.error e, s) => (.error e, s)
  | (.ok _, s) =>
    let (r, s) := readLoop n name size s.sched s
    (r, s.close (.file n name))

/-- ports/ev3/utils.c:83-101 `INTBUFSIZE`, `sysfs_read_int`: at most eleven characters are read. (`EINVAL` is 22.) -/
def Sys.readInt (s : Sys) (n : Nat) (name : Text) : Except Errno Int × Sys :=
  match s.read n name 11 with
  | (.error e, s) => (.error e, s)
  | (.ok t, s) =>
    match intAt t with
    | none => (.error (.other 22), s)
    | some v => (.ok v, s)

/-- ports/ev3/utils.c:103-115 `sysfs_read_int_range` (`ERANGE` is 34) -/
def Sys.readRange (s : Sys) (n : Nat) (name : Text) (lo hi : Int) : Except Errno Int × Sys :=
  match s.readInt n name with
  | (.error e, s) => (.error e, s)
  | (.ok v, s) => if v < lo ∨ v > hi then (.error (.other 34), s) else (.ok v, s)

/-- The `write` of a file of a device, whole or with an error. -/
def Sys.writeNow (s : Sys) (n : Nat) (name text : Text) : Except Errno Unit × Sys :=
  match s.world[n]? with
  | some d => if d.alive then (.ok (), { s with wrote := s.wrote ++ [(n, name, text)] }) else (.error (.other 19), s)
  | none => (.error (.other 19), s)

/-- ports/ev3/utils.c:48-57 `write_noeintr` -/
def writeLoop (n : Nat) (name text : Text) : List Slot → Sys → Except Errno Unit × Sys
  | [], s => { s with sched := [] }.writeNow n name text
  | sl :: r, s =>
    let s := { s with sched := r, world := sl.evs.foldl event s.world }
    match sl.fail with
    | some .intr => writeLoop n name text r s
    | some e => (.error e, s)
    | none => s.writeNow n name text

/-- ports/ev3/utils.c:117-135 `sysfs_write`. A partial write, which the kernel does not make on such files, is not modelled. -/
def Sys.write (s : Sys) (n : Nat) (name text : Text) : Except Errno Unit × Sys :=
  match s.openFile n name with
  | (.error e, s) => (.error e, s)
  | (.ok _, s) =>
    let (r, s) := writeLoop n name text s.sched s
    (r, s.close (.file n name))

/-- ports/ev3/utils.c:137-144 `sysfs_write_int` -/
def Sys.writeInt (s : Sys) (n : Nat) (name : Text) (v : Int) : Except Errno Unit × Sys := s.write n name (dec v)

/-- ports/ev3/utils.c:21-27 `cutprefix` -/
def cutprefix (t pre : Text) : Option Text := if t.take pre.length = pre then some (t.drop pre.length) else none

/-! ## Sensors -/

/-- The state of `sensors.c`: ports/ev3/sensors.c:70-76 `sensor_kind`, `sensor_num`. -/
structure Sensors where
  sys : Sys
  kind : Nat → Nat
  num : Nat → Nat

/-- ports/ev3/sensors.c:33-47 `DRIVER_NAMES`: touch 1, gyro 2, ultrasonic 3, colour 4 -/
def drivers : List (Nat × Text) :=
  [(1, "lego-ev3-touch\n".toList), (2, "lego-ev3-gyro\n".toList), (3, "lego-ev3-us\n".toList), (4, "lego-ev3-color\n".toList)]

/-- ports/ev3/sensors.c:87-108 `get_sensor_port` -/
def getPort (s : Sys) (n : Nat) : Option Nat × Sys :=
  match s.read n "address".toList 63 with
  | (.error _, s) => (none, s.error)
  | (.ok a, s) =>
    match cutprefix a "ev3-ports:in".toList with
    | none => (none, s.error)
    | some u =>
      let c := u.getD 0 '\x00'
      if c < '1' ∨ '5' ≤ c ∨ u.getD 1 '\x00' ≠ '\n' then (none, s.error) else (some (c.toNat - 48), s)

/-- ports/ev3/sensors.c:112-128 `get_sensor_kind` -/
def getKind (s : Sys) (n : Nat) : Option Nat × Sys :=
  match s.read n "driver_name".toList 31 with
  | (.error _, s) => (none, s.error)
  | (.ok t, s) =>
    match drivers.find? fun e => t = e.2 with
    | some e => (some e.1, s)
    | none => (none, s.error)

/-- ports/ev3/sensors.c:130-144 `discover_sensor2`: `false` is -1 -/
def discover2 (st : Sensors) (n : Nat) : Bool × Sensors :=
  match getKind st.sys n with
  | (none, s) => (false, { st with sys := s })
  | (some k, s) =>
    match getPort s n with
    | (none, s) => (false, { st with sys := s })
    | (some p, s) =>
      (true, { sys := s, kind := fun q => if q = p then k else st.kind q, num := fun q => if q = p then n else st.num q })

/-- ports/ev3/sensors.c:146-163 `discover_sensor` -/
def discover1 (st : Sensors) (n : Nat) : Bool × Sensors :=
  match st.sys.openDev n with
  | (.error .noent, s) => (true, { st with sys := s })
  | (.error _, s) => (false, { st with sys := s.error })
  | (.ok _, s) =>
    let (r, st) := discover2 { st with sys := s } n
    (r, { st with sys := st.sys.close (.dev n) })

/-- ports/ev3/sensors.c:165-190 `discover_sensors2` over the names of the directory -/
def discoverAll (st : Sensors) : List Entry → Bool × Sensors
  | [] => (true, st)
  | .dot :: r => discoverAll st r
  | .other :: _ => (false, { st with sys := st.sys.error })
  | .dev n :: r =>
    match discover1 st n with
    | (false, st) => (false, st)
    | (true, st) => discoverAll st r

/-- ports/ev3/sensors.c:192-215 `discover_sensors`: the tables are cleared; `open`, `fdopendir`; the names are given by the slot of the latter. -/
def discover (st : Sensors) : Bool × Sensors :=
  let st := { st with kind := fun _ => 0, num := fun _ => 0 }
  let (sl, s) := st.sys.call
  if sl.fail.isSome then (false, { st with sys := s.error })
  else
    let s := { s with fds := .classDir :: s.fds }
    let (sl, s) := s.call
    if sl.fail.isSome then (false, { st with sys := (s.close .classDir).error })
    else
      let (r, st) := discoverAll { st with sys := s } sl.names
      (r, { st with sys := st.sys.close .classDir })

/-- ports/ev3/sensors.c:219-232 `open_sensor` -/
def openSensor (st : Sensors) (p : Nat) : Except Errno Nat × Sensors :=
  if st.kind p = 0 then (.error .noent, st)
  else
    match st.sys.openDev (st.num p) with
    | (.error e, s) => (.error e, { st with sys := s })
    | (.ok _, s) => (.ok (st.num p), { st with sys := s })

/-- ports/ev3/sensors.c:234-262 `get_sensor`. The number of the port is the argument truncated to an integer. -/
def getSensor (st : Sensors) (p : Int) : Option Nat × Sensors :=
  if p ≤ 0 ∨ p > 4 then (none, { st with sys := st.sys.error })
  else
    match openSensor st p.toNat with
    | (.ok n, st) => (some n, st)
    | (.error _, st) =>
      match discover st with
      | (false, st) => (none, st)
      | (true, st) =>
        match openSensor st p.toNat with
        | (.ok n, st) => (some n, st)
        | (.error _, st) => (none, { st with sys := st.sys.error })

/-- ports/ev3/sensors.c:264-274 `button` -/
def button (s : Sys) (n : Nat) : Val × Sys :=
  match s.readRange n "value0".toList 0 1 with
  | (.error _, s) => (.none, s.error)
  | (.ok v, s) => (.num (if v ≠ 0 then 0x3f800000 else 0), s)

/-- ports/ev3/sensors.c:276-290 `distance` -/
def distance (s : Sys) (n : Nat) : Val × Sys :=
  match s.readInt n "value0".toList with
  | (.error _, s) => (.none, s.error)
  | (.ok d, s) => if d = 2550 then (.num 0x7f800000, s) else (.num (ratio d 10), s)

/-- ports/ev3/sensors.c:349-360 `light_read_intensity` -/
def intensity (s : Sys) (n : Nat) : Val × Sys :=
  match s.readRange n "value0".toList 0 100 with
  | (.error _, s) => (.none, s.error)
  | (.ok v, s) => (.num (ratio v 100), s)

/-- ports/ev3/sensors.c:374-387 `light_read_color_name`. A colour is given by its number (`COLORS`, 58-60); its string is made by
`snek_ev3_init_colors` (362-372) and stays at the bottom of the value stack, which is not modelled. -/
def colorName (s : Sys) (n : Nat) : Val × Sys :=
  match s.readRange n "value0".toList 0 7 with
  | (.error _, s) => (.none, s.error)
  | (.ok v, s) => if v = 0 then (.none, s) else (.color v.toNat, s)

/-- ports/ev3/sensors.c:389-419 `light_read_rgb`. That the value stack or the pool may be full is not modelled. -/
def readRgb (s : Sys) (n : Nat) : Val × Sys :=
  match s.readRange n "value0".toList 0 1020 with
  | (.error _, s) => (.none, s.error)
  | (.ok r, s) =>
    match s.readRange n "value1".toList 0 1020 with
    | (.error _, s) => (.none, s.error)
    | (.ok g, s) =>
      match s.readRange n "value2".toList 0 1020 with
      | (.error _, s) => (.none, s.error)
      | (.ok b, s) => (.rgb (ratio r 1020) (ratio g 1020) (ratio b 1020), s)

/-- ports/ev3/sensors.c:421-445 `light` -/
def light (s : Sys) (n : Nat) : Val × Sys :=
  match s.read n "mode".toList 15 with
  | (.error _, s) => (.none, s.error)
  | (.ok m, s) =>
    if m = "COL-REFLECT\n".toList ∨ m = "COL-AMBIENT\n".toList then intensity s n
    else if m = "COL-COLOR\n".toList then colorName s n
    else if m = "RGB-RAW\n".toList then readRgb s n
    else (.none, s.error)

/-- ports/ev3/sensors.c:447-476 `snek_ev3_sensors_read`, which `read` calls for a number (ports/ev3/snek-main.c:169-181) -/
def readSensor (st : Sensors) (p : Int) : Val × Sensors :=
  match getSensor st p with
  | (none, st) => (.none, st)
  | (some n, st) =>
    let (v, s) :=
      match getKind st.sys n with
      | (some 1, s) => button s n
      | (some 2, s) => (.none, s.error)
      | (some 3, s) => distance s n
      | (some 4, s) => light s n
      | (_, s) => (.none, s)
    (v, { st with sys := s.close (.dev n) })

/-- ports/ev3/sensors.c:292-347 `light_set_mode2`, `light_set_mode`, which the four built-ins `light_…` call with a mode each -/
def setMode (st : Sensors) (p : Int) (mode : Text) : Sensors :=
  match getSensor st p with
  | (none, st) => st
  | (some n, st) =>
    let s :=
      match getKind st.sys n with
      | (none, s) => s
      | (some k, s) =>
        if k ≠ 4 then s.error
        else
          match s.write n "mode".toList mode with
          | (.error _, s) => s.error
          | (.ok _, s) => s
    { st with sys := s.close (.dev n) }

/-- The modes of ports/ev3/sensors.c:325-347: `light_reflected`, `light_ambient`, `light_color`, `light_rgb`. -/
inductive Mode
  | reflected
  | ambient
  | color
  | rgb

/-- Their texts. -/
def Mode.text : Mode → Text
  | .reflected => "COL-REFLECT".toList
  | .ambient => "COL-AMBIENT".toList
  | .color => "COL-COLOR".toList
  | .rgb => "RGB-RAW".toList

/-- A call of a built-in of `sensors.c`. -/
inductive SCall
  | read (p : Int)
  | mode (p : Int) (m : Mode)

/-- A call in a world that behaves as the schedule says; the error of an earlier call has been reported. -/
def callSensor (st : Sensors) (c : SCall) (sched : List Slot) : Val × Sensors :=
  let st := { st with sys := { st.sys with sched := sched, err := false } }
  match c with
  | .read p => readSensor st p
  | .mode p m => (.none, setMode st p m.text)

/-- The process when it starts, in a world with some devices. -/
def sensors0 (w : World) : Sensors := { sys := { world := w, sched := [], fds := [], err := false, wrote := [] }, kind := fun _ => 0, num := fun _ => 0 }

/-- A history of calls. What happens between two calls is in the schedule of the second. -/
def history (w : World) (cs : List (SCall × List Slot)) : Sensors := cs.foldl (fun st c => (callSensor st c.1 c.2).2) (sensors0 w)

end Snek.Ev3
