import Verif.Basic

/-!
# The creation time of endpoints (property C105)

`endpoint::get_stat_created_time_sec` and `endpoint::get_stat_created_time_usec` on the clock of the node.

Simplified: times are integers without bound; endpoints are numbered in the order of their construction and numbers are not used again;
the destruction of endpoints is not modelled (a query of a destroyed endpoint is the subject of C103).
-/

namespace Verif.Node.Created

/-- `event_timer_.sec`, `event_timer_.usec` of the node and `stat_.created_time_sec`, `stat_.created_time_usec` of its endpoints. -/
structure S where
  sec : Int := 0
  usec : Int := 0
  /-- the number of endpoints constructed so far -/
  n : Nat := 0
  cs : Nat → Int := fun _ => 0
  cu : Nat → Int := fun _ => 0

/-- `endpoint::get_stat_created_time_sec`, `src/atbus_endpoint.cpp:670-678`. -/
def getSec (s : S) (r : Nat) : S × Int :=
  if s.cs r > 0 then (s, s.cs r)
  else
    let t := { s with cs := fun x => if x = r then s.sec else s.cs x }
    let u := { t with cu := fun x => if x = r then t.usec else t.cu x }
    (u, u.cs r)

/-- `endpoint::get_stat_created_time_usec`, `src/atbus_endpoint.cpp:680-688`. -/
def getUsec (s : S) (r : Nat) : S × Int :=
  if s.cs r > 0 then (s, s.cu r)
  else
    let t := { s with cs := fun x => if x = r then s.sec else s.cs x }
    let u := { t with cu := fun x => if x = r then t.usec else t.cu x }
    (u, u.cu r)

/-- The clock part of `node::proc`, `src/atbus_node.cpp:395-400`. -/
def tick (s : S) (sec usec : Int) : S :=
  if sec > s.sec then { s with sec := sec, usec := usec }
  else if sec = s.sec ∧ usec > s.usec then { s with usec := usec }
  else s

inductive Op where
  /-- `node::proc` with this time -/
  | proc (sec usec : Int)
  /-- `node::start` with this time, `src/atbus_node.cpp:232-238` -/
  | start (sec usec : Int)
  /-- an endpoint is constructed, `stat_t::stat_t`, `src/atbus_endpoint.cpp:528-529` -/
  | create
  | askSec (r : Nat)
  | askUsec (r : Nat)

def step (s : S) : Op → S
  | .proc a b => tick s a b
  | .start a b => { s with sec := a, usec := b }
  | .create =>
    { s with n := s.n + 1, cs := fun x => if x = s.n then 0 else s.cs x, cu := fun x => if x = s.n then 0 else s.cu x }
  | .askSec r => if r < s.n then (getSec s r).1 else s
  | .askUsec r => if r < s.n then (getUsec s r).1 else s

def run (s : S) (ops : List Op) : S := ops.foldl step s

/-- A new node, `src/atbus_node.cpp:115-116`. -/
def init : S := {}

end Verif.Node.Created
