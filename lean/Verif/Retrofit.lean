import Verif.Types
import Verif.Ser
import Verif.WriteSpec

/-! # `src/retrofit.rs`: std types with `Serialize` and `Deserialize`

For each std type: its values, the declaration (`fourleaf_retrofit!`), what the accessors used for serialisation return (`toV`), and what the constructor
expression makes of the deserialised fields (`ofV`; `none` stands for an index out of bounds or a value that is not of the field's type). -/

namespace Fourleaf
open Spec

/-- `std::net::Ipv4Addr`. -/
structure Ipv4 where
  (a b c d : UInt8)
  deriving DecidableEq

/-- `std::net::Ipv6Addr`: eight segments. -/
structure Ipv6 where
  (s0 s1 s2 s3 s4 s5 s6 s7 : UInt16)
  deriving DecidableEq

/-- `std::net::IpAddr`. -/
inductive Ip where
  | v4 (x : Ipv4)
  | v6 (x : Ipv6)

/-- `std::time::Duration`: seconds, and nanoseconds below one second. -/
structure Dur where
  secs : UInt64
  nanos : UInt32
  lt : nanos.toNat < 1000000000

/-- `std::net::SocketAddrV4`. -/
structure SockV4 where
  ip : Ipv4
  port : UInt16

/-- `std::net::SocketAddrV6`. -/
structure SockV6 where
  ip : Ipv6
  port : UInt16
  flowinfo : UInt32
  scope : UInt32

/-- `std::net::SocketAddr`. -/
inductive Sock where
  | v4 (x : SockV4)
  | v6 (x : SockV6)

/-- `Ipv4Addr::octets` (std). -/
def Ipv4.octets (x : Ipv4) : List Byte := [x.a, x.b, x.c, x.d]

/-- The bytes of a segment, the more significant one first (std). -/
def hi (s : UInt16) : Byte := (s >>> 8).toUInt8
def lo (s : UInt16) : Byte := s.toUInt8

/-- `Ipv6Addr::octets` (std): the segments in network byte order. -/
def Ipv6.octets (x : Ipv6) : List Byte :=
  [hi x.s0, lo x.s0, hi x.s1, lo x.s1, hi x.s2, lo x.s2, hi x.s3, lo x.s3, hi x.s4, lo x.s4, hi x.s5, lo x.s5, hi x.s6, lo x.s6, hi x.s7, lo x.s7]

/-- The macro `seg!` (`src/retrofit.rs` 32-36). -/
def seg (h l : Byte) : UInt16 := (h.toUInt16 <<< 8) ||| l.toUInt16

/-! ## Declarations -/

/-- `Ipv4Addr` (`src/retrofit.rs` 20-24). -/
def ipv4Decl : Decl := .struct ⟨[], .delegate "octets" (.small 4 (.prim (.int .u8))), fun _ => true⟩

/-- `Ipv6Addr` (`src/retrofit.rs` 27-40). -/
def ipv6Decl : Decl := .struct ⟨[], .delegate "octets" (.small 16 (.prim (.int .u8))), fun _ => true⟩

/-- `IpAddr` (`src/retrofit.rs` 42-52), with the numbers of the declarations it refers to. -/
def ipDecl (v4 v6 : Nat) : Decl :=
  .enum [(4, ⟨[], .delegate "ip" (.named v4), fun _ => true⟩), (6, ⟨[], .delegate "ip" (.named v6), fun _ => true⟩)] none

/-- `Duration` (`src/retrofit.rs` 54-64). -/
def durDecl : Decl :=
  .struct ⟨[⟨1, "secs", .prim (.int .u64)⟩, ⟨2, "nsecs", .prim (.int .u32)⟩], .plain, fun vs =>
    match vs with
    | [_, .num nsecs] => decide (nsecs < 1000000000)
    | _ => false⟩

/-- `SocketAddrV4` (`src/retrofit.rs` 66-71). -/
def sockV4Decl (v4 : Nat) : Decl :=
  .struct ⟨[⟨1, "ip", .named v4⟩, ⟨2, "port", .prim (.int .u16)⟩], .plain, fun _ => true⟩

/-- `SocketAddrV6` (`src/retrofit.rs` 73-80). -/
def sockV6Decl (v6 : Nat) : Decl :=
  .struct ⟨[⟨1, "ip", .named v6⟩, ⟨2, "port", .prim (.int .u16)⟩, ⟨3, "flowinfo", .prim (.int .u32)⟩, ⟨4, "scope_id", .prim (.int .u32)⟩], .plain, fun _ => true⟩

/-- `SocketAddr` (`src/retrofit.rs` 82-92). -/
def sockDecl (s4 s6 : Nat) : Decl :=
  .enum [(4, ⟨[], .delegate "v4" (.named s4), fun _ => true⟩), (6, ⟨[], .delegate "v6" (.named s6), fun _ => true⟩)] none

/-- `Result<T, E>` (`src/retrofit.rs` 94-112). -/
def resultDecl (t e : Ty) : Decl :=
  .enum [(1, ⟨[], .delegate "t" t, fun _ => true⟩), (2, ⟨[], .delegate "e" e, fun _ => true⟩)] none

/-- The declarations of the std types, somewhere in the declarations of a program. -/
structure StdDecls (env : Env) where
  (ipv4 ipv6 ip dur sockV4 sockV6 sock : Nat)
  ipv4_decl : env.decl ipv4 = ipv4Decl
  ipv6_decl : env.decl ipv6 = ipv6Decl
  ip_decl : env.decl ip = ipDecl ipv4 ipv6
  dur_decl : env.decl dur = durDecl
  sockV4_decl : env.decl sockV4 = sockV4Decl ipv4
  sockV6_decl : env.decl sockV6 = sockV6Decl ipv6
  sock_decl : env.decl sock = sockDecl sockV4 sockV6

/-! ## Values -/

def V.u16? : V → Option UInt16
  | .num i => if 0 ≤ i ∧ i < 2 ^ 16 then some (UInt16.ofNat i.toNat) else none
  | _ => none
def V.u32? : V → Option UInt32
  | .num i => if 0 ≤ i ∧ i < 2 ^ 32 then some (UInt32.ofNat i.toNat) else none
  | _ => none
def V.u64? : V → Option UInt64
  | .num i => if 0 ≤ i ∧ i < 2 ^ 64 then some (UInt64.ofNat i.toNat) else none
  | _ => none
def V.bytes? : V → Option (List Byte)
  | .seq vs => bytesOf vs
  | _ => none

/-- `this.octets()` (`src/retrofit.rs` 22). -/
def Ipv4.toV (x : Ipv4) : V := .seq [.ofBytes x.octets]
/-- `Ipv4Addr::new(octets[0], octets[1], octets[2], octets[3])` (`src/retrofit.rs` 23). -/
def Ipv4.ofV : V → Option Ipv4
  | .seq [v] => v.bytes?.bind fun o => o[0]?.bind fun a => o[1]?.bind fun b => o[2]?.bind fun c => o[3]?.map fun d => ⟨a, b, c, d⟩
  | _ => none

/-- `seg!(n)` with the bounds checks (`src/retrofit.rs` 32-36). -/
def segAt (o : List Byte) (n : Nat) : Option UInt16 := o[n]?.bind fun h => o[n + 1]?.map fun l => seg h l

/-- `this.octets()` (`src/retrofit.rs` 29). -/
def Ipv6.toV (x : Ipv6) : V := .seq [.ofBytes x.octets]
/-- `Ipv6Addr::new(seg!(0), seg!(2), …)` (`src/retrofit.rs` 37-38). -/
def Ipv6.ofV : V → Option Ipv6
  | .seq [v] => v.bytes?.bind fun o =>
    (segAt o 0).bind fun s0 => (segAt o 2).bind fun s1 => (segAt o 4).bind fun s2 => (segAt o 6).bind fun s3 =>
    (segAt o 8).bind fun s4 => (segAt o 10).bind fun s5 => (segAt o 12).bind fun s6 => (segAt o 14).map fun s7 => ⟨s0, s1, s2, s3, s4, s5, s6, s7⟩
  | _ => none

/-- (`src/retrofit.rs` 44-51) -/
def Ip.toV : Ip → V
  | .v4 x => .variant 4 [x.toV]
  | .v6 x => .variant 6 [x.toV]
def Ip.ofV : V → Option Ip
  | .variant d [v] => if d = 4 then (Ipv4.ofV v).map .v4 else if d = 6 then (Ipv6.ofV v).map .v6 else none
  | _ => none

/-- `this.as_secs()`, `this.subsec_nanos()` (`src/retrofit.rs` 56-57). -/
def Dur.toV (x : Dur) : V := .seq [.num x.secs.toNat, .num x.nanos.toNat]
/-- `Duration::new(secs, nsecs)` (`src/retrofit.rs` 58-59), which is only reached if `nsecs < 1_000_000_000` (that is the `check` of the declaration). -/
def Dur.ofV : V → Option Dur
  | .seq [s, n] => s.u64?.bind fun secs => n.u32?.bind fun nanos => if h : nanos.toNat < 1000000000 then some ⟨secs, nanos, h⟩ else none
  | _ => none

/-- (`src/retrofit.rs` 68-70) -/
def SockV4.toV (x : SockV4) : V := .seq [x.ip.toV, .num x.port.toNat]
def SockV4.ofV : V → Option SockV4
  | .seq [ip, port] => (Ipv4.ofV ip).bind fun ip => port.u16?.map fun port => ⟨ip, port⟩
  | _ => none

/-- (`src/retrofit.rs` 75-79) -/
def SockV6.toV (x : SockV6) : V := .seq [x.ip.toV, .num x.port.toNat, .num x.flowinfo.toNat, .num x.scope.toNat]
def SockV6.ofV : V → Option SockV6
  | .seq [ip, port, fl, sc] => (Ipv6.ofV ip).bind fun ip => port.u16?.bind fun port => fl.u32?.bind fun fl => sc.u32?.map fun sc => ⟨ip, port, fl, sc⟩
  | _ => none

/-- (`src/retrofit.rs` 84-91) -/
def Sock.toV : Sock → V
  | .v4 x => .variant 4 [x.toV]
  | .v6 x => .variant 6 [x.toV]
def Sock.ofV : V → Option Sock
  | .variant d [v] => if d = 4 then (SockV4.ofV v).map .v4 else if d = 6 then (SockV6.ofV v).map .v6 else none
  | _ => none

/-! ## Specification: the documented messages

The numbers of the fields and discriminants are those in `src/retrofit.rs`; addresses are blobs in network byte order. -/

def Ipv4.message (x : Ipv4) : List Tok := [.blob 1 [x.a, x.b, x.c, x.d], .endStruct]

/-- The two bytes of a segment in network byte order. -/
def netBytes (s : UInt16) : List Byte := [UInt8.ofNat (s.toNat / 256), UInt8.ofNat (s.toNat % 256)]
def Ipv6.netOctets (x : Ipv6) : List Byte := [x.s0, x.s1, x.s2, x.s3, x.s4, x.s5, x.s6, x.s7].flatMap netBytes
def Ipv6.message (x : Ipv6) : List Tok := [.blob 1 x.netOctets, .endStruct]

def Ip.message : Ip → List Tok
  | .v4 x => .enum 1 4 :: x.message ++ [.endStruct]
  | .v6 x => .enum 1 6 :: x.message ++ [.endStruct]

def Dur.message (x : Dur) : List Tok := [.int 1 x.secs, .int 2 x.nanos.toUInt64, .endStruct]
def SockV4.message (x : SockV4) : List Tok := [.blob 1 [x.ip.a, x.ip.b, x.ip.c, x.ip.d], .int 2 x.port.toUInt64, .endStruct]
def SockV6.message (x : SockV6) : List Tok :=
  [.blob 1 x.ip.netOctets, .int 2 x.port.toUInt64, .int 3 x.flowinfo.toUInt64, .int 4 x.scope.toUInt64, .endStruct]
def Sock.message : Sock → List Tok
  | .v4 x => .enum 1 4 :: x.message ++ [.endStruct]
  | .v6 x => .enum 1 6 :: x.message ++ [.endStruct]

end Fourleaf
