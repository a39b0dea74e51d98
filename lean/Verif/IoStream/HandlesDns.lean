import Verif.IoStream.HandlesProps

/-!
Adds resolving names to `Handles`: the `dns` part of `io_stream_listen` and `io_stream_connect` (`src/channel_io_stream.cpp:1197-1216`,
`:1465-1482`), `io_stream_dns_connection_cb` (`:991-1058`) and `io_stream_dns_connect_cb` (`:1284-1353`).

A request is an object given to libuv that points to the channel; when libuv reports the result the function listens or connects with the first
address, calls back if that failed, and deletes the object and the list of addresses.  libuv is the environment: it reports every request
that it took once, while the loop runs.  `none` is undefined behaviour as in `Handles`: use of a deleted request, or of a channel without a loop.
The requests count as active, so that `io_stream_close` waits for them, and they keep a loop busy.
-/
namespace Verif.IoStream.HandlesDns

open Verif.IoStream.Handles

/-- The channel, and the requests: their objects, those libuv works on, and lists of addresses that are not freed. -/
structure D where
  st : St
  obj : Nat → Bool
  n : Nat
  dns : List Nat
  lists : Nat

/-- Nothing allocated. -/
def D.start : D := ⟨.start, fun _ => false, 0, [], 0⟩

/-- The `dns` part of `io_stream_listen` and `io_stream_connect`; `ok`: `uv_getaddrinfo` takes the request. -/
def ask (d : D) (ok : Bool) : D :=
  if d.st.closing then d
  else
    let d1 := { d with st := getLoop d.st, n := d.n + 1 }
    if ok then { d1 with obj := upd d.obj d.n true, dns := d.dns ++ [d.n] } else d1

/-- What libuv found: nothing, or a list whose first address is one of IPv4 or IPv6 or something else. -/
inductive Found where
  | failed
  | list (ip : Bool)
deriving DecidableEq, Repr

/-- `io_stream_dns_connection_cb` (`lst`) and `io_stream_dns_connect_cb` for request `q`; `ok`: what follows succeeds, as in `Handles`. -/
def resolved (d : D) (q : Nat) (lst : Bool) (f : Found) (ok : Bool) : Option D :=
  if d.obj q = false ∨ d.st.evLoop = none then none
  else
    let lists := match f with
      | .failed => d.lists
      | .list _ => d.lists + 1
    let st := match f with
      | .list true => if lst then listen d.st ok else connect d.st ok
      | _ => some d.st
    match st with
    | none => none
    | some st =>
      let d1 := { d with st := st, dns := d.dns.filter (· ≠ q), obj := upd d.obj q false }
      match f with
      | .failed => some { d1 with lists := lists }
      | .list _ => some { d1 with lists := lists - 1 }

inductive Ev where
  | base (e : Handles.Ev)
  | ask (ok : Bool)
  | resolved (q : Nat) (lst : Bool) (f : Found) (ok : Bool)
deriving DecidableEq, Repr

/-- What the event does. -/
def step (d : D) : Ev → Option D
  | .base e => (Handles.step d.st e).map fun st => { d with st := st }
  | .ask ok => some (ask d ok)
  | .resolved q l f ok => resolved d q l f ok

/-- The events that can happen, as in `Handles`; `io_stream_close` ends only when no request is left. -/
def can (d : D) : Ev → Bool
  | .base .closeEnd => Handles.can d.st .closeEnd && d.dns.isEmpty
  | .base e => Handles.can d.st e
  | .ask _ => true
  | .resolved q _ _ _ => d.dns.contains q

/-- A history, if it is possible and every step is defined. -/
def run : D → List Ev → Option D
  | d, [] => some d
  | d, e :: t => if can d e then (step d e).bind fun d1 => run d1 t else none

end Verif.IoStream.HandlesDns
