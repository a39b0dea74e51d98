import Verif.Shm.Model
import Verif.Mem.Model

/-!
Model of several processes that use shared memory channels: `src/channel_shm.cpp` (the branch for systems other
than Windows) with the segments of the operating system, and the opening of a channel by `connection::listen` and
`connection::connect` (`src/atbus_connection.cpp:187-218,311-345`), which attach and, if that fails, initialise.

The table of mapped segments is one per process.  A channel in a segment is the list of the messages in it
(C12, C13); whether there is room for a message is a choice of the environment.  Failures of `shmat` (not checked
by the code) are not modelled.
-/
namespace Verif.Shm.Share

/-- A message. -/
abbrev Msg := Nat

/-- What the operating system finds a segment by: the name given to `shm_open`, or the `key_t` given to `shmget`,
which has 32 bits (`src/channel_shm.cpp:313-318,354`). -/
inductive OsKey where
  | posix (t : List Char)
  | sysv (n : Nat)
deriving DecidableEq, Repr

/-- `shm_path.second` and `shm_path.first` as they are given to the system calls, `src/channel_shm.cpp:313-318,354`. -/
def osKey (k : Key) : OsKey := if k.sysv = 0 then .posix k.text else .sysv (k.sysv % (2 ^ 32 : Int)).toNat

/-- A segment: its size and the channel in it, with the layout of the build that initialised it (version, alignment,
size of `size_t`); `none`: all bytes zero. -/
structure Seg where
  size : Nat := 0
  chan : Option (Nat × List Msg) := none
deriving DecidableEq, Repr

/-- A mapping of a segment into a process. -/
structure Map where
  seg : Nat := 0
  proc : Nat := 0
  live : Bool := false
deriving DecidableEq, Repr

/-- `shm_mapped_record_type`, `src/channel_shm.cpp:87-90`. -/
structure Rec where
  count : Nat
  map : Nat
deriving DecidableEq, Repr

/-- A connection that has the channel: `conn_data_.shared.shm`, with the name it closes it by. -/
structure Handle where
  id : Nat
  proc : Nat
  name : List Char
  map : Nat
deriving DecidableEq, Repr

/-- The machine. -/
structure S where
  names : OsKey → Option Nat := fun _ => none
  seg : Nat → Seg := fun _ => {}
  nseg : Nat := 0
  map : Nat → Map := fun _ => {}
  nmap : Nat := 0
  /-- `shm_mapped_by_key_records` of each process -/
  tab : Nat → List Char → Option Rec := fun _ _ => none
  hnd : List Handle := []
  nh : Nat := 0

/-- `util::string::str2int`, and the layout each process was built with. -/
structure Cfg where
  num : List Char → Int
  build : Nat → Nat

/-- Rounding to pages, `src/channel_shm.cpp:283-284`. -/
def pages (len : Nat) : Nat := (len + 4095) / 4096 * 4096

/-- Update of one entry (plumbing). -/
def S.setTab (s : S) (p : Nat) (t : List Char) (r : Option Rec) : S :=
  { s with tab := fun x y => if x = p ∧ y = t then r else s.tab x y }

/-- A new mapping (plumbing). -/
def S.newMap (s : S) (g p : Nat) : S :=
  { s with map := fun m => if m = s.nmap then { seg := g, proc := p, live := true } else s.map m, nmap := s.nmap + 1 }

/-- A new segment, filled with zeros (plumbing). -/
def S.newSeg (s : S) (size : Nat) : S :=
  { s with seg := fun g => if g = s.nseg then { size } else s.seg g, nseg := s.nseg + 1 }

/-- The name of a segment is set or removed (plumbing). -/
def S.setName (s : S) (k : OsKey) (g : Option Nat) : S := { s with names := fun x => if x = k then g else s.names x }

/-- A mapping ends (plumbing). -/
def S.unmap (s : S) (m : Nat) : S := { s with map := fun x => if x = m then { s.map m with live := false } else s.map x }

/-- The channel in a segment changes (plumbing). -/
def S.setChan (s : S) (g : Nat) (c : Option (Nat × List Msg)) : S :=
  { s with seg := fun x => if x = g then { s.seg g with chan := c } else s.seg x }

/-- Outcome of the system calls: all succeed, the first fails, or a later one (`shmctl`; `fstat`, `ftruncate`, `mmap`). -/
inductive Sys where
  | ok
  | failed
  | late
deriving DecidableEq, Repr

/-- Maps a segment and enters it into the table, `src/channel_shm.cpp:339-371`; only the System V branch sets the
counter (367). -/
def enter (s : S) (p : Nat) (k : Key) (g : Nat) : S × Option Nat :=
  ((s.newMap g p).setTab p k.text (some ⟨if k.sysv = 0 then 0 else 1, s.nmap⟩), some s.nmap)

/-- `shm_open_buffer`, `src/channel_shm.cpp:192-380`; the result is the mapping. -/
def openBuffer (cf : Cfg) (s : S) (p : Nat) (name : List Char) (len : Nat) (create : Bool) (sys : Sys) : S × Option Nat :=
  let k := normalize cf.num name
  if verify k.text = false then (s, none)
  else
    match s.tab p k.text with
    | some r => (s.setTab p k.text (some { r with count := (r.count + 1) % W64 }), some r.map)
    | none =>
      if sys = .failed then (s, none)
      else
        match osKey k with
        -- IPC_PRIVATE: always a new segment
        | .sysv 0 => if sys = .late then (s.newSeg (pages len), none) else enter (s.newSeg (pages len)) p k s.nseg
        | .sysv n =>
          match s.names (.sysv n) with
          | some g => if pages len > (s.seg g).size ∨ sys = .late then (s, none) else enter s p k g
          | none =>
            if create then
              -- 360: the segment remains when `shmctl` fails
              if sys = .late then ((s.newSeg (pages len)).setName (.sysv n) (some s.nseg), none)
              else enter ((s.newSeg (pages len)).setName (.sysv n) (some s.nseg)) p k s.nseg
            else (s, none)
        | .posix t =>
          match s.names (.posix t) with
          -- 320-346: the name is removed when a later call fails
          | some g => if sys = .late then (s.setName (.posix t) none, none) else enter s p k g
          | none =>
            if create ∧ sys = .ok then enter ((s.newSeg (pages len)).setName (.posix t) (some s.nseg)) p k s.nseg else (s, none)

/-- `shm_close_buffer`, `src/channel_shm.cpp:147-190`. -/
def closeBuffer (cf : Cfg) (s : S) (p : Nat) (name : List Char) : S :=
  let k := normalize cf.num name
  if verify k.text = false then s
  else
    match s.tab p k.text with
    | none => s
    | some r =>
      let c := pred r.count
      if c > 0 then s.setTab p k.text (some { r with count := c })
      else
        let s := (s.setTab p k.text none).unmap r.map
        if k.sysv = 0 then s.setName (.posix k.text) none else s

/-- A connection gets the channel (plumbing). -/
def S.push (s : S) (p : Nat) (name : List Char) (m : Nat) : S := { s with hnd := ⟨s.nh, p, name, m⟩ :: s.hnd, nh := s.nh + 1 }

/-- `shm_attach`, `src/channel_shm.cpp:424-443`, with the checks of `mem_attach`, `src/channel_mem.cpp:456-482`. -/
def attachHalf (cf : Cfg) (s : S) (p : Nat) (name : List Char) (len : Nat) (sys : Sys) : S × Option Nat :=
  match openBuffer cf s p name len false sys with
  | (s, none) => (s, none)
  | (s, some m) =>
    let g := (s.map m).seg
    if Mem.minLen ≤ (s.seg g).size ∧ (s.seg g).chan.map Prod.fst = some (cf.build p) then (s.push p name m, some s.nh)
    else (closeBuffer cf s p name, none)

/-- `shm_init`, `src/channel_shm.cpp:445-464`, with `mem_init`, `src/channel_mem.cpp:484-535`. -/
def initHalf (cf : Cfg) (s : S) (p : Nat) (name : List Char) (len : Nat) (sys : Sys) : S × Option Nat :=
  match openBuffer cf s p name len true sys with
  | (s, none) => (s, none)
  | (s, some m) =>
    let g := (s.map m).seg
    if Mem.minLen ≤ (s.seg g).size then ((s.setChan g (some (cf.build p, []))).push p name m, some s.nh)
    else (closeBuffer cf s p name, none)

/-- `connection::listen` and `connection::connect`, `src/atbus_connection.cpp:190-194,314-318`. -/
def openChan (cf : Cfg) (s : S) (p : Nat) (name : List Char) (len : Nat) (a i : Sys) : S × Option Nat :=
  match attachHalf cf s p name len a with
  | (s, some h) => (s, some h)
  | (s, none) => initHalf cf s p name len i

/-- What happens.  `attach` and `init` are the halves of an `open` between which others run. -/
inductive Op where
  | «open» (p : Nat) (name : List Char) (len : Nat) (a i : Sys)
  | attach (p : Nat) (name : List Char) (len : Nat) (a : Sys)
  | init (p : Nat) (name : List Char) (len : Nat) (i : Sys)
  /-- `shm_send` and `shm_recv` -/
  | send (h : Nat) (m : Msg) (room : Bool)
  | recv (h : Nat)
  /-- `shm_free_fn`: `shm_close` -/
  | close (h : Nat)
  /-- the process ends without closing anything -/
  | die (p : Nat)
deriving DecidableEq, Repr

/-- Result of a call. -/
inductive Res where
  | none
  | opened (h : Nat)
  | sent
  | got (x : Option Msg)
  /-- memory that is not mapped any more is used -/
  | ub
deriving DecidableEq, Repr

/-- Result of opening. -/
def Res.ofOpen : Option Nat → Res
  | some h => .opened h
  | .none => .none

/-- One call. -/
def step (cf : Cfg) (s : S) : Op → S × Res
  | .open p name len a i => let r := openChan cf s p name len a i; (r.1, .ofOpen r.2)
  | .attach p name len a => let r := attachHalf cf s p name len a; (r.1, .ofOpen r.2)
  | .init p name len i => let r := initHalf cf s p name len i; (r.1, .ofOpen r.2)
  | .send h m room =>
    match s.hnd.find? (·.id == h) with
    | none => (s, .none)
    | some x =>
      if (s.map x.map).live = false then (s, .ub)
      else
        match (s.seg (s.map x.map).seg).chan with
        | some (b, q) => if room then (s.setChan (s.map x.map).seg (some (b, q ++ [m])), .sent) else (s, .none)
        | none => (s, .none)
  | .recv h =>
    match s.hnd.find? (·.id == h) with
    | none => (s, .none)
    | some x =>
      if (s.map x.map).live = false then (s, .ub)
      else
        match (s.seg (s.map x.map).seg).chan with
        | some (b, q) => (s.setChan (s.map x.map).seg (some (b, q.tail)), .got q.head?)
        | none => (s, .none)
  | .close h =>
    match s.hnd.find? (·.id == h) with
    | none => (s, .none)
    | some x => (closeBuffer cf { s with hnd := s.hnd.eraseP (·.id == h) } x.proc x.name, .none)
  | .die p =>
    ({ s with
        tab := fun x y => if x = p then none else s.tab x y
        hnd := s.hnd.filter fun x => x.proc != p
        map := fun m => if (s.map m).proc = p then { s.map m with live := false } else s.map m }, .none)

/-- A history and its results. -/
def run (cf : Cfg) (s : S) : List Op → S × List Res
  | [] => (s, [])
  | o :: os => let r := step cf s o; let t := run cf r.1 os; (t.1, r.2 :: t.2)

end Verif.Shm.Share
