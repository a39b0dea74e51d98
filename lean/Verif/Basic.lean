/-!
Shared definitions: bytes and error codes.
-/
namespace Verif

/-- One octet of memory. -/
abbrev Byte := Fin 256

/-! Error codes, `include/detail/libatbus_error.h:6-77`.  Only the values the
models return. -/
namespace Err
/-- `include/detail/libatbus_error.h:7`. -/
def SUCCESS : Int := 0
/-- `include/detail/libatbus_error.h:9`. -/
def PARAMS : Int := -1
/-- `include/detail/libatbus_error.h:10`. -/
def INNER : Int := -2
/-- `include/detail/libatbus_error.h:11`. -/
def NO_DATA : Int := -3
/-- `include/detail/libatbus_error.h:12`. -/
def BUFF_LIMIT : Int := -4
/-- `include/detail/libatbus_error.h:13`. -/
def MALLOC : Int := -5
/-- `include/detail/libatbus_error.h:14`. -/
def SCHEME : Int := -6
/-- `include/detail/libatbus_error.h:15`. -/
def BAD_DATA : Int := -7
/-- `include/detail/libatbus_error.h:16`. -/
def INVALID_SIZE : Int := -8
/-- `include/detail/libatbus_error.h:17`. -/
def NOT_INITED : Int := -9
/-- `include/detail/libatbus_error.h:18`. -/
def ALREADY_INITED : Int := -10
/-- `include/detail/libatbus_error.h:19`. -/
def ACCESS_DENY : Int := -11
/-- `include/detail/libatbus_error.h:20`. -/
def UNPACK : Int := -12
/-- `include/detail/libatbus_error.h:21`. -/
def PACK : Int := -13
/-- `include/detail/libatbus_error.h:22`. -/
def UNSUPPORTED_VERSION : Int := -14
/-- `include/detail/libatbus_error.h:23`. -/
def CLOSING : Int := -15
/-- `include/detail/libatbus_error.h:25`. -/
def ATNODE_NOT_FOUND : Int := -65
/-- `include/detail/libatbus_error.h:26`. -/
def ATNODE_INVALID_ID : Int := -66
/-- `include/detail/libatbus_error.h:27`. -/
def ATNODE_NO_CONNECTION : Int := -67
/-- `include/detail/libatbus_error.h:28`. -/
def ATNODE_FAULT_TOLERANT : Int := -68
/-- `include/detail/libatbus_error.h:29`. -/
def ATNODE_INVALID_MSG : Int := -69
/-- `include/detail/libatbus_error.h:30`. -/
def ATNODE_BUS_ID_NOT_MATCH : Int := -70
/-- `include/detail/libatbus_error.h:31`. -/
def ATNODE_TTL : Int := -71
/-- `include/detail/libatbus_error.h:32`. -/
def ATNODE_MASK_CONFLICT : Int := -72
/-- `include/detail/libatbus_error.h:33`. -/
def ATNODE_ID_CONFLICT : Int := -73
/-- `include/detail/libatbus_error.h:34`. -/
def ATNODE_SRC_DST_IS_SAME : Int := -75
/-- `include/detail/libatbus_error.h:36`. -/
def CHANNEL_SIZE_TOO_SMALL : Int := -101
/-- `include/detail/libatbus_error.h:37`. -/
def CHANNEL_BUFFER_INVALID : Int := -102
/-- `include/detail/libatbus_error.h:38`. -/
def CHANNEL_ADDR_INVALID : Int := -103
/-- `include/detail/libatbus_error.h:39`. -/
def CHANNEL_CLOSING : Int := -104
/-- `include/detail/libatbus_error.h:40`. -/
def CHANNEL_NOT_SUPPORT : Int := -105
/-- `include/detail/libatbus_error.h:41`. -/
def CHANNEL_UNSUPPORTED_VERSION : Int := -106
/-- `include/detail/libatbus_error.h:42`. -/
def CHANNEL_ALIGN_SIZE_MISMATCH : Int := -107
/-- `include/detail/libatbus_error.h:43`. -/
def CHANNEL_ARCH_SIZE_T_MISMATCH : Int := -108
/-- `include/detail/libatbus_error.h:45`. -/
def NODE_BAD_BLOCK_NODE_NUM : Int := -202
/-- `include/detail/libatbus_error.h:46`. -/
def NODE_BAD_BLOCK_BUFF_SIZE : Int := -203
/-- `include/detail/libatbus_error.h:47`. -/
def NODE_BAD_BLOCK_WSEQ_ID : Int := -204
/-- `include/detail/libatbus_error.h:48`. -/
def NODE_BAD_BLOCK_CSEQ_ID : Int := -205
/-- `include/detail/libatbus_error.h:50`. -/
def NODE_TIMEOUT : Int := -211
/-- `include/detail/libatbus_error.h:52`. -/
def SHM_GET_FAILED : Int := -301
/-- `include/detail/libatbus_error.h:53`. -/
def SHM_NOT_FOUND : Int := -302
/-- `include/detail/libatbus_error.h:54`. -/
def SHM_CLOSE_FAILED : Int := -303
/-- `include/detail/libatbus_error.h:69`. -/
def CONNECTION_NOT_FOUND : Int := -602
/-- `include/detail/libatbus_error.h:70`. -/
def WRITE_FAILED : Int := -603
/-- `include/detail/libatbus_error.h:71`. -/
def READ_FAILED : Int := -604
/-- `include/detail/libatbus_error.h:74`. -/
def NOT_READY : Int := -607
end Err

/-- Number of values of a 64-bit unsigned integer (`size_t`, `uint64_t`). -/
abbrev W64 : Nat := 2 ^ 64

end Verif
