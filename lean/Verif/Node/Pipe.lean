import Verif.Mem.Spec

/-!
Model of a memory channel between two nodes, from `connection::push` on one side to `node::on_recv` on the other:
`mem_push_fn`, `mem_proc_fn` (and `shm_push_fn`, `shm_proc_fn`, which call the same functions), `src/atbus_connection.cpp:706-834`, on top of
the channel of `Mem.Model`.

The calls of the two nodes do not overlap.  What the handler of a message does to other connections is left out (`Node.Poll` has it);
here it ends well or with an error, and may push messages into the same channel.
-/
namespace Verif.Node.Pipe

open Verif.Mem

/-- The configuration of the receiving node: `fault_tolerant`, `loop_times`, and the size of its static buffer. -/
structure Conf where
  tol : Nat
  loop : Nat
  buf : Nat

/-- What happens with a message that was received. -/
inductive Out where
  /-- `unpack` refuses it, `src/atbus_connection.cpp:810-812` -/
  | garbage
  /-- `on_recv` dispatches it; the handler pushes messages and ends well or not, `src/atbus_node.cpp:1458-1484` -/
  | handled (ok : Bool) (pushes : List Msg)

/-- The channel, the receiving connection (state CONNECTED, `stat_.fault_count`), and what was seen. -/
structure S where
  ch : Chan
  up : Bool := true
  fault : Nat := 0
  /-- ghost: messages taken from the channel by the receiving node, in order -/
  got : List Msg := []
  /-- ghost: messages whose push returned success, in order -/
  sent : List Msg := []

/-- `mem_push_fn`, `src/atbus_connection.cpp:824-834`; `none` if `mem_send` leaves its memory or does not end. -/
def push (hash : List Byte → Nat) (s : S) (m : Msg) : Option S :=
  match send hash s.ch m with
  | .done c code => some { s with ch := c, sent := if code ≥ 0 then s.sent ++ [m] else s.sent }
  | _ => none

/-- Pushes made by a handler, in order. -/
def pushes (hash : List Byte → Nat) : S → List Msg → Option S
  | s, [] => some s
  | s, m :: l =>
    match push hash s m with
    | none => none
    | some s => pushes hash s l

/-- `node::add_connection_fault`, `src/atbus_node.cpp:2092-2100`: the connection is reset and leaves `proc_connections_`.  `reset` clears the
counters. -/
def addFault (cf : Conf) (s : S) : S :=
  if s.fault + 1 > cf.tol then { s with up := false, fault := 0 } else { s with fault := s.fault + 1 }

/-- The loop of `mem_proc_fn`, `src/atbus_connection.cpp:783-817`, with `node::on_recv`; `now` is the clock `mem_recv` reads.  A connection
that was reset has no channel, and `mem_recv` returns EN_ATBUS_ERR_PARAMS. -/
def loop (hash : List Byte → Nat) (cf : Conf) (now : Nat) : Nat → List Out → S → Option S
  | 0, _, s => some s
  | k + 1, os, s =>
    if s.up = false then some (addFault cf s)
    else
      match recv hash s.ch now cf.buf with
      | .done c code _ bytes =>
        let s := { s with ch := c }
        if code = Err.NO_DATA then some s
        else if code < 0 then some (addFault cf s)
        else
          let s := { s with got := s.got ++ [bytes] }
          match os with
          | [] => loop hash cf now k [] { s with fault := 0 }
          | .garbage :: os => loop hash cf now k os s
          | .handled ok ms :: os =>
            match pushes hash s ms with
            | none => none
            | some s => loop hash cf now k os (if ok then { s with fault := 0 } else addFault cf s)
      | _ => none

/-- What the two nodes do. -/
inductive Op where
  /-- the sending node pushes -/
  | push (m : Msg)
  /-- the receiving node polls its connection, `connection::proc`, `src/atbus_connection.cpp:132-142` -/
  | proc (now : Nat) (os : List Out)

/-- One call. -/
def step (hash : List Byte → Nat) (cf : Conf) (s : S) : Op → Option S
  | .push m => push hash s m
  | .proc now os => if s.up then loop hash cf now cf.loop os s else some s

/-- Runs the calls in order (plumbing). -/
def run (hash : List Byte → Nat) (cf : Conf) (s : S) : List Op → Option S
  | [] => some s
  | o :: l =>
    match step hash cf s o with
    | none => none
    | some s => run hash cf s l

/-- The channel after `mem_init`, with a connection listening on it. -/
def init (c : Mem.Conf) : S := { ch := initChan c }

end Verif.Node.Pipe
