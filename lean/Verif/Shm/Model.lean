import Verif.Basic

/-!
Model of the table of mapped shared memory segments, `src/channel_shm.cpp` (the branch for systems other than
Windows): names (96-145), closing (147-190), opening (192-380), `shm_attach`, `shm_init` and `shm_close`
(424-466).

The functions hold one lock while they use the table, so calls are atomic.  The results of the
system calls and of `mem_attach`/`mem_init` are choices of the environment.  `util::string::str2int` is not part
of the repository; it is the parameter `num`.  A name that is a sequence of characters contains no zero
character.  A failed assertion is the outcome `none` in a build with assertions.
-/
namespace Verif.Shm

/-- Codes of `include/detail/libatbus_error.h` not used elsewhere. -/
def PATH_INVALID : Int := -304
/-- `include/detail/libatbus_error.h:56`. -/
def MAP_FAILED : Int := -305

/-- Normalised name: key of the table, and the System V key (0: POSIX shared memory). -/
structure Key where
  text : List Char
  sysv : Int
deriving DecidableEq, Repr

/-- `util::string::int2str`: decimal text. -/
def dec : Int → List Char
  | .ofNat n => Nat.toDigits 10 n
  | .negSucc n => '-' :: Nat.toDigits 10 (n + 1)

/-- `shm_normalize_path`, `src/channel_shm.cpp:96-118`. -/
def normalize (num : List Char → Int) : List Char → Key
  | [] => ⟨[], 0⟩
  | c :: r =>
    if c = '/' ∨ c = '\\' then ⟨'/' :: r, 0⟩
    else ⟨dec (num (c :: r)), num (c :: r)⟩

/-- `shm_verify_path`, `src/channel_shm.cpp:120-145`; `NAME_MAX` is 255. -/
def verify : List Char → Bool
  | [] => false
  | c :: r => if (c :: r).length > 255 then false else if c ≠ '/' then true else r.all fun x => x ≠ '/'

/-- `shm_mapped_record_type`, `src/channel_shm.cpp:87-90`. -/
structure Rec where
  count : Nat
  size : Nat
deriving DecidableEq, Repr

/-- What the operating system sees. -/
inductive Ev where
  | mapped (k : List Char)
  | unmapped (k : List Char)
deriving DecidableEq, Repr

/-- `shm_mapped_by_key_records`, and the history. -/
structure S where
  tab : List Char → Option Rec
  log : List Ev

/-- Nothing is mapped. -/
def S.init : S := ⟨fun _ => none, []⟩

/-- Update of one entry (plumbing). -/
def upd (f : List Char → Option Rec) (k : List Char) (v : Option Rec) : List Char → Option Rec :=
  fun j => if j = k then v else f j

/-- Outcome of the system calls of `shm_open_buffer`, `src/channel_shm.cpp:308-368`.  `shmat` is not checked by
the code; its failure is not modelled. -/
inductive Sys where
  | getFailed
  | mapFailed
  | ok (size : Nat)

/-- `shm_open_buffer`, `src/channel_shm.cpp:192-380`. -/
def openBuffer (num : List Char → Int) (sys : Sys) (s : S) (name : List Char) : S × Int :=
  let k := normalize num name
  if verify k.text = false then (s, PATH_INVALID)
  else
    match s.tab k.text with
    | some r => ({ s with tab := upd s.tab k.text (some { r with count := (r.count + 1) % W64 }) }, Err.SUCCESS)
    | none =>
      match sys with
      | .getFailed => (s, Err.SHM_GET_FAILED)
      | .mapFailed => (s, MAP_FAILED)
      | .ok size =>
        -- 367: only the System V branch stores 1; otherwise the record keeps the 0 of value initialisation (201)
        ({ tab := upd s.tab k.text (some ⟨if k.sysv = 0 then 0 else 1, size⟩), log := s.log ++ [.mapped k.text] }, Err.SUCCESS)

/-- `--reference_count` of a `size_t`. -/
def pred (c : Nat) : Nat := (c + W64 - 1) % W64

/-- `shm_close_buffer`, `src/channel_shm.cpp:147-190`; `fails`: `shmdt` or `munmap` reports an error. -/
def closeBuffer (asserts : Bool) (num : List Char → Int) (fails : Bool) (s : S) (name : List Char) : Option (S × Int) :=
  let k := normalize num name
  if verify k.text = false then some (s, PATH_INVALID)
  else
    match s.tab k.text with
    | none => some (s, Err.SHM_NOT_FOUND)
    | some r =>
      if asserts = true ∧ r.count = 0 then none
      else
        let c := pred r.count
        if c > 0 then some ({ s with tab := upd s.tab k.text (some { r with count := c }) }, Err.SUCCESS)
        else
          some ({ tab := upd s.tab k.text none, log := s.log ++ [.unmapped k.text] },
            if fails then Err.SHM_CLOSE_FAILED else Err.SUCCESS)

/-- Choices of the environment in `shm_attach` or `shm_init`: the system calls, the result of `mem_attach` or
`mem_init`, and whether unmapping fails. -/
structure Env where
  sys : Sys
  mem : Int
  fails : Bool

/-- `shm_attach` and `shm_init`, `src/channel_shm.cpp:424-464`. -/
def attach (asserts : Bool) (num : List Char → Int) (ev : Env) (s : S) (name : List Char) : Option (S × Int) :=
  let r := openBuffer num ev.sys s name
  if r.2 < 0 then some r
  else if ev.mem < 0 then (closeBuffer asserts num ev.fails r.1 name).map fun x => (x.1, ev.mem)
  else some (r.1, ev.mem)

/-- `shm_attach`/`shm_init` and `shm_close`. -/
inductive Op where
  | «open» (name : List Char) (ev : Env)
  | close (name : List Char) (fails : Bool)

/-- One call; `none` where an assertion fails. -/
def step (asserts : Bool) (num : List Char → Int) (s : S) : Op → Option (S × Int)
  | .open name ev => attach asserts num ev s name
  | .close name fails => closeBuffer asserts num fails s name

/-- A history and its return values. -/
def run (asserts : Bool) (num : List Char → Int) (s : S) : List Op → Option (S × List Int)
  | [] => some (s, [])
  | o :: os =>
    match step asserts num s o with
    | none => none
    | some (s1, r) =>
      match run asserts num s1 os with
      | none => none
      | some (s2, rs) => some (s2, r :: rs)

end Verif.Shm
