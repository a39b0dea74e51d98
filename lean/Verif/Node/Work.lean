import Verif.Node.Poll

/-!
Model of the results of `node::proc` and `node::poll`: the numbers the application uses to decide whether there is more to do.

The receiving loop is that of `Node.Poll`, here with its result and the calls of `node::on_recv`; `recvRet_state` shows that it is the
same loop.  The number of messages to itself that the node handled is a parameter (`Node.SelfQueue` has the queue).
-/
namespace Verif.Node.Work

open Verif.Node.Poll

/-- A call of `node::on_recv` by the receiving loop: with a message, or with the error of the channel. -/
inductive Ev where
  | message
  | error (code : Int)
deriving DecidableEq, Repr

/-- The loop of `mem_proc_fn` and `shm_proc_fn` with its variable `ret`, `src/atbus_connection.cpp:783-818`, `:714-753`; `code` is the
error of a failed `mem_recv`.  Also gives the calls of `on_recv`. -/
def recvRet (cf : Conf) (c : Nat) (code : Int) : Nat → List Rcv → S → Int → S × Int × List Ev
  | 0, _, s, ret => (s, ret, [])
  | k + 1, rs, s, ret =>
    if (s.conn c).up = false then (addFault cf s c, Err.PARAMS, [.error Err.PARAMS])
    else
      match rs with
      | [] => (s, ret, [])
      | .none :: _ => (s, ret, [])
      | .fail :: _ => (addFault cf s c, code, [.error code])
      | .garbage :: rs => recvRet cf c code k rs s ret
      | .msg acts ok :: rs =>
        let s := acts.foldl act s
        let s := if ok then s.set c { s.conn c with fault := 0 } else addFault cf s c
        let r := recvRet cf c code k rs s (ret + 1)
        (r.1, r.2.1, .message :: r.2.2)

/-- `connection::proc`, `src/atbus_connection.cpp:132-142`, with its result. -/
def procRet (cf : Conf) (s : S) (c : Nat) (rs : List Rcv) (code : Int) : S × Int × List Ev :=
  let s := { s with polled := c :: s.polled }
  if (s.conn c).up then recvRet cf c code cf.loop rs s 0 else (s, 0, [])

/-- The loop of `node::proc` with `ret += iter->second->proc(...)`, `src/atbus_node.cpp:416-419`, from the position of the iterator; one
element of the list for each connection. -/
def loopRet (cf : Conf) : List (List Rcv × Int) → S → S × Int × List Ev
  | [], s => (s, 0, [])
  | (rs, code) :: l, s =>
    match s.at_ with
    | none => (s, 0, [])
    | some c =>
      let p := procRet cf s c rs code
      let r := loopRet cf l (advance p.1 c)
      (r.1, p.2.1 + r.2.1, p.2.2 ++ r.2.2)

/-- `node::proc` after its checks, `src/atbus_node.cpp:412-602`: the loop, the messages to itself (`self` of them), and one more if the
node is shut down.  Also gives the calls of `on_recv` made by the loop. -/
def nodeProc (cf : Conf) (l : List (List Rcv × Int)) (self : Nat) (shutdown : Bool) (s : S) : Int × List Ev :=
  let r := loopRet cf l (step cf s .begin_)
  (r.2.1 + self + (if shutdown then 1 else 0), r.2.2)

/-- What happens inside one call of `node::poll`, in order. -/
inductive PEv where
  /-- `msg_handler::dispatch_msg` calls a handler, `src/atbus_msg_handler.cpp:109-110`: a message of a stream, or one handled in a call of
  `proc` inside a callback -/
  | dispatched
  /-- a message refused before, `src/atbus_connection.cpp:604-607`, `src/atbus_msg_handler.cpp:93-107` -/
  | refused
deriving DecidableEq, Repr

/-- `node::stat_.dispatch_times` and the events of the streams, `src/atbus_node.cpp:2220`; a `size_t`. -/
def dispatchTimes (n : Nat) : List PEv → Nat
  | [] => n
  | .dispatched :: l => dispatchTimes ((n + 1) % W64) l
  | .refused :: l => dispatchTimes n l

/-- `static_cast<int>(x)` of a `size_t` (two's complement). -/
def toInt32 (x : Nat) : Int := if x % 2 ^ 32 < 2 ^ 31 then (x % 2 ^ 32 : Nat) else (x % 2 ^ 32 : Nat) - 2 ^ 32

/-- `node::poll` after its checks, `src/atbus_node.cpp:626-672`: the difference of the counter, the messages to itself, and one more if
the node is shut down. -/
def nodePoll (n : Nat) (l : List PEv) (self : Nat) (shutdown : Bool) : Int :=
  toInt32 ((dispatchTimes n l + (W64 - n)) % W64) + self + (if shutdown then 1 else 0)

end Verif.Node.Work
