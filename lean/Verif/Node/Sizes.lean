import Verif.Buffer.Model
import Verif.IoStream.Send

/-!
Model of the size checks on the way of a message: `node::send_data` and `node::send_custom_cmd`
(`src/atbus_node.cpp:842-897`, `899-969`), `msg_handler::send_msg` (`src/atbus_msg_handler.cpp:401-420`), the limits
`node::get_iostream_conf` gives to streams (`src/atbus_node.cpp:2357-2379`) and the buffer messages from memory
channels are received into (`src/atbus_node.cpp:215-216`).

The serialiser is generated by protobuf and is not part of the repository.  What is modelled of it is the length
of its output: the proto3 wire format for the messages of `include/libatbus_protocol.proto` (fields with the
default value are left out, numeric repeated fields are packed, field numbers below 16 take one byte).
-/
namespace Verif.Node.Sizes

/-- `ATBUS_MACRO_MAX_FRAME_HEADER`, `CMakeLists.txt` default. -/
abbrev frameHeader : Nat := 1024

/-! ### Lengths in the wire format -/

/-- Length of a varint. -/
def vlen (n : Nat) : Nat := if n < 128 then 1 else 1 + vlen (n / 128)
decreasing_by omega

/-- An unsigned field. -/
def fieldU (n : Nat) : Nat := if n = 0 then 0 else 1 + vlen n

/-- An `int32` field: negative numbers are written as 64 bits. -/
def fieldI (n : Int) : Nat := if n = 0 then 0 else 1 + vlen (n % 2 ^ 64).toNat

/-- A `sint32` field (zigzag). -/
def fieldZ (n : Int) : Nat := if n = 0 then 0 else 1 + vlen (if n < 0 then (-2 * n - 1).toNat else (2 * n).toNat)

/-- A `bytes` field of `n` bytes. -/
def fieldB (n : Nat) : Nat := if n = 0 then 0 else 1 + vlen n + n

/-- A message field of `n` bytes. -/
def fieldM (n : Nat) : Nat := 1 + vlen n + n

/-- A packed repeated field. -/
def packed (l : List Nat) : Nat := if l = [] then 0 else fieldM (l.map vlen).sum

/-- `msg_head`, `include/libatbus_protocol.proto:78-84`. -/
structure Head where
  version : Int
  type : Int
  ret : Int
  sequence : Nat
  src : Nat
deriving DecidableEq, Repr

/-- `msg_head::ByteSizeLong`, fields of `include/libatbus_protocol.proto:79-85`. -/
def Head.size (h : Head) : Nat := fieldI h.version + fieldI h.type + fieldZ h.ret + fieldU h.sequence + fieldU h.src

/-- `forward_data`, `include/libatbus_protocol.proto:33-39`; of the content only its length. -/
structure Data where
  «from» : Nat
  to : Nat
  router : List Nat
  content : Nat
  flags : Nat
deriving DecidableEq, Repr

/-- `forward_data::ByteSizeLong`, fields of `include/libatbus_protocol.proto:32-38`. -/
def Data.size (d : Data) : Nat := fieldU d.from + fieldU d.to + packed d.router + fieldB d.content + fieldU d.flags

/-- `access_data`, `include/libatbus_protocol.proto:41-45`. -/
structure Access where
  salt : Nat
  hash1 : Nat
  hash2 : Nat
deriving DecidableEq, Repr

/-- `access_data::ByteSizeLong`, fields of `include/libatbus_protocol.proto:40-44`. -/
def Access.size (a : Access) : Nat := fieldU a.salt + fieldU a.hash1 + fieldU a.hash2

/-- `custom_command_data`, `include/libatbus_protocol.proto:25-31`; of the arguments only their lengths. -/
structure Cmd where
  «from» : Nat
  args : List Nat
  keys : List Access
deriving DecidableEq, Repr

/-- `custom_command_data::ByteSizeLong`, fields of `include/libatbus_protocol.proto:26-30`. -/
def Cmd.size (c : Cmd) : Nat :=
  fieldU c.from + (c.args.map fun n => fieldM (fieldB n)).sum + (c.keys.map fun a => fieldM a.size).sum

/-- `msg` with a body of the given length, `include/libatbus_protocol.proto:86-102` (body numbers 11 to 14). -/
def msgSize (h : Head) (body : Nat) : Nat := fieldM h.size + fieldM body

/-! ### Sending -/

/-- Configuration: `msg_size`, and `sizeof(custom_command_data)` of the build. -/
structure Conf where
  msg : Nat
  cmdBase : Nat
deriving DecidableEq, Repr

/-- `msg_handler::send_msg`, `src/atbus_msg_handler.cpp:401-420`, for a message of `n` bytes: the error, or the
number of bytes given to `connection::push`. -/
def sendMsg (cf : Conf) (n : Nat) : Except Int Nat :=
  if n > (cf.msg + frameHeader) % W64 then .error Err.INVALID_SIZE else .ok n

/-- `node::send_data`, `src/atbus_node.cpp:842-897`, up to the transmission on the chosen connection. -/
def sendData (cf : Conf) (created : Bool) (h : Head) (d : Data) : Except Int Nat :=
  if created then .error Err.NOT_INITED
  else if d.content > cf.msg then .error Err.INVALID_SIZE
  else sendMsg cf (msgSize h d.size)

/-- The sum of `node::send_custom_cmd`, `src/atbus_node.cpp:905-908`, in `size_t`. -/
def cmdSum (cf : Conf) (args : List Nat) : Nat := args.foldl (fun s n => (s + n + 2) % W64) (cf.cmdBase % W64)

/-- `node::send_custom_cmd`, `src/atbus_node.cpp:899-969`. -/
def sendCmd (cf : Conf) (created : Bool) (h : Head) (c : Cmd) : Except Int Nat :=
  if created then .error Err.NOT_INITED
  else if cmdSum cf c.args > cf.msg then .error Err.INVALID_SIZE
  else sendMsg cf (msgSize h c.size)

/-- Everything that is transmitted goes through `send_msg`: data, commands, forwarded data and answers, and the
node's own messages (`other`, of any length). -/
inductive Call where
  | data (created : Bool) (h : Head) (d : Data)
  | cmd (created : Bool) (h : Head) (c : Cmd)
  | other (n : Nat)
deriving DecidableEq, Repr

/-- One transmission. -/
def call (cf : Conf) : Call → Except Int Nat
  | .data b h d => sendData cf b h d
  | .cmd b h c => sendCmd cf b h c
  | .other n => sendMsg cf n

/-! ### Limits of the channels -/

/-- `send_buffer_limit_size`, `src/atbus_node.cpp:2370-2372`; `uv` is `sizeof(uv_write_t)`. -/
def streamSendLimit (cf : Conf) (uv : Nat) : Nat := (cf.msg + frameHeader + Buffer.padding (uv + 4 + 16)) % W64

/-- `recv_buffer_limit_size` and `recv_buffer_max_size`, `src/atbus_node.cpp:2363-2365`.  The receive buffer of a
node's streams is in dynamic mode and is empty when a block is pushed; `Buffer.Size64.push` is that push. -/
def streamRecv (cf : Conf) (maxHash maxBlock maxAgain : Nat) : IoStream.RConf where
  accept := fun n => (Buffer.Size64.push 0 0 0 ((cf.msg + cf.msg + frameHeader + 1024) % W64) n).isSome
  limit := (cf.msg + frameHeader) % W64
  maxHash := maxHash
  maxBlock := maxBlock
  maxAgain := maxAgain

/-- Size of the buffer `mem_proc_fn` and `shm_proc_fn` receive into, `src/atbus_node.cpp:215-216`
(`src/atbus_connection.cpp:706-757`, `773-823`). -/
def staticBuffer (cf : Conf) : Nat := (cf.msg + Buffer.headSize + 64) % W64

end Verif.Node.Sizes
