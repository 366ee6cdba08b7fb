import Verif.Retrofit
import Verif.PropsUnknown

/-! # C56: the std types of `src/retrofit.rs` -/

namespace Fourleaf
open Spec

theorem hi_toNat (s : UInt16) : (hi s).toNat = s.toNat / 256 := by
  have := s.toNat_lt
  simp only [hi, UInt16.toNat_toUInt8, UInt16.toNat_shiftRight]
  rw [show (UInt16.toNat 8 % 16) = 8 from rfl, Nat.shiftRight_eq_div_pow]
  omega

theorem lo_toNat (s : UInt16) : (lo s).toNat = s.toNat % 256 := by
  simp [lo]

theorem seg_toNat (h l : Byte) : (seg h l).toNat = h.toNat * 256 + l.toNat := by
  have h1 := h.toNat_lt
  have h2 := l.toNat_lt
  simp only [seg, UInt16.toNat_or, UInt16.toNat_shiftLeft, UInt8.toNat_toUInt16]
  rw [show (UInt16.toNat 8 % 16) = 8 from rfl]
  have : h.toNat <<< 8 % 2 ^ 16 = h.toNat <<< 8 := by rw [Nat.shiftLeft_eq]; omega
  rw [this, ← Nat.shiftLeft_add_eq_or_of_lt (by omega), Nat.shiftLeft_eq]

theorem seg_hi_lo (s : UInt16) : seg (hi s) (lo s) = s := by
  apply UInt16.toNat_inj.1
  rw [seg_toNat, hi_toNat, lo_toNat]; omega

theorem hi_lo_net (s : UInt16) : netBytes s = [hi s, lo s] := by
  have := s.toNat_lt
  unfold netBytes
  congr 1
  · apply UInt8.toNat_inj.1; rw [hi_toNat, UInt8.toNat_ofNat']; omega
  · congr 1; apply UInt8.toNat_inj.1; rw [lo_toNat, UInt8.toNat_ofNat']; omega

theorem Ipv6.octets_eq (x : Ipv6) : x.octets = x.netOctets := by
  simp [Ipv6.octets, Ipv6.netOctets, hi_lo_net]

/-! ## `ofV` undoes `toV` -/

theorem bytes_ofBytes (d : List Byte) : (V.ofBytes d).bytes? = some d := bytesOf_map d

theorem Ipv4.ofV_toV (x : Ipv4) : Ipv4.ofV x.toV = some x := by
  simp [Ipv4.ofV, Ipv4.toV, bytes_ofBytes, Ipv4.octets]

theorem Ipv6.ofV_toV (x : Ipv6) : Ipv6.ofV x.toV = some x := by
  simp [Ipv6.ofV, Ipv6.toV, bytes_ofBytes, Ipv6.octets, segAt, seg_hi_lo]

theorem u16_toV (n : UInt16) : (V.num n.toNat).u16? = some n := by
  have := n.toNat_lt
  simp only [V.u16?]; rw [if_pos (by omega)]; simp
theorem u32_toV (n : UInt32) : (V.num n.toNat).u32? = some n := by
  have := n.toNat_lt
  simp only [V.u32?]; rw [if_pos (by omega)]; simp
theorem u64_toV (n : UInt64) : (V.num n.toNat).u64? = some n := by
  have := n.toNat_lt
  simp only [V.u64?]; rw [if_pos (by omega)]; simp

theorem Ip.ofV_toV (x : Ip) : Ip.ofV x.toV = some x := by
  cases x <;> simp [Ip.ofV, Ip.toV, Ipv4.ofV_toV, Ipv6.ofV_toV]

theorem Dur.ofV_toV (x : Dur) : Dur.ofV x.toV = some x := by
  simp [Dur.ofV, Dur.toV, u32_toV, u64_toV, x.lt]

theorem SockV4.ofV_toV (x : SockV4) : SockV4.ofV x.toV = some x := by
  simp [SockV4.ofV, SockV4.toV, u16_toV, Ipv4.ofV_toV]

theorem SockV6.ofV_toV (x : SockV6) : SockV6.ofV x.toV = some x := by
  simp [SockV6.ofV, SockV6.toV, u16_toV, u32_toV, Ipv6.ofV_toV]

theorem Sock.ofV_toV (x : Sock) : Sock.ofV x.toV = some x := by
  cases x <;> simp [Sock.ofV, Sock.toV, SockV4.ofV_toV, SockV6.ofV_toV]

end Fourleaf

namespace Fourleaf.Props
open Fourleaf Spec

/-- A std type `α`, deserialised as fields of `t` from which `ofV` constructs the value, and serialised from the fields `toV`: `message x` is what is written for `x`, the same `x` is
constructed when it is read (whatever follows, and nothing behind the message is consumed), and whatever input is accepted, the construction succeeds. -/
structure StdOk (env : Env) (t : Ty) {α : Type} (toV : α → V) (ofV : V → Option α) (message : α → List Tok) (levels : Nat) : Prop where
  written : ∀ x, Produces env t (toV x) (canonToks (message x))
  readBack : ∀ x cfg, levels ≤ cfg.recursionLimit → ∀ (s : Stream) (tail : List Byte), Over s (canonToks (message x) ++ tail) →
    s.pos + (canonToks (message x) ++ tail).length < U64MAX →
    ∃ v s', (deserialize env t cfg).run (s, .zero) = .ok v (s', .zero) ∧ ofV v = some x ∧ Behind s s' (canonToks (message x)) tail
  constructed : ∀ cfg s, Inv s → ∀ v st, (deserialize env t cfg).run (s, .zero) = .ok v st → ∃ x, ofV v = some x

theorem stdOk {env : Env} (henv : env.Ok) (hwf : env.wf) {t : Ty} (ht : t.wf false = true) {α : Type} {toV : α → V} {ofV : V → Option α} {message : α → List Tok}
    {levels : Nat} (h1 : ∀ x, ofV (toV x) = some x) (h2 : ∀ x, HasType env t (toV x) ⟨levels, .zero, false⟩)
    (h3 : ∀ x, ∃ cs, SerializesBody env t (toV x) cs ∧ callToks cs = message x) (h4 : ∀ v k, HasType env t v k → ∃ x, ofV v = some x) :
    StdOk env t toV ofV message levels where
  written x := by
    obtain ⟨cs, g1, g2⟩ := h3 x
    obtain ⟨cs', l, e1, e2, -⟩ := tree_roundtrip henv (h2 x)
    cases serializesBody_unique g1 e1
    refine ⟨cs ++ [.commit], ⟨cs, g1, rfl⟩, ?_, fun w hw hb hroom => ?_⟩
    · rintro _ ⟨b, h4, rfl⟩; rw [serializesBody_unique g1 h4]
    · have hv : ∀ c ∈ cs ++ [.commit], ∀ t ∈ c.toks, t.Valid := by
        intro c hc
        rcases List.mem_append.1 hc with hc | hc
        · exact e2.valid c hc
        · cases List.mem_singleton.1 hc; intro t ht; cases ht
      rw [← g2, ← callToks_commit] at hroom ⊢
      obtain ⟨w', f1, f2, -, -, f3⟩ := c09_documented_format (cs ++ [.commit]) hv w hw hb hroom
      exact ⟨w', f1, f3, f2⟩
  readBack x cfg hl s tail hs hroom := by
    obtain ⟨cs, g1, g2⟩ := h3 x
    obtain ⟨cs', l, e1, e2, e3⟩ := tree_roundtrip henv (h2 x)
    cases serializesBody_unique g1 e1
    rw [← g2] at hs hroom ⊢
    have hw : Need.Within ⟨levels, .zero, false⟩ cfg := ⟨hl, Nat.zero_le _, Nat.zero_le _, fun h => by cases h⟩
    obtain ⟨s', f1, f2⟩ := de_ok env t cfg e2.message hs hroom (e3 cfg hw).1 (e3 cfg hw).2
    exact ⟨_, s', f1, h1 x, f2⟩
  constructed cfg s hi v st h := by
    obtain ⟨k, hk⟩ := c46_valid env hwf t ht cfg s hi v st h
    exact h4 v k hk

variable {env : Env} (D : StdDecls env)

/-! ## Values of the types -/

theorem has_ipv4_elem (x : Ipv4) : Needs env (.elem (.named D.ipv4)) [x.toV] ⟨1, .zero, false⟩ :=
  .elemDelegate D.ipv4_decl rfl rfl rfl (.elemSmall rfl (by simp [Ipv4.octets]))

theorem has_ipv4 (x : Ipv4) : HasType env (.named D.ipv4) x.toV ⟨2, .zero, false⟩ :=
  .bodyStruct D.ipv4_decl (.partsDelegate rfl rfl rfl (.bodyWrapped rfl (.fieldSingle rfl (.elemSmall rfl (by simp [Ipv4.octets])))))

theorem has_ipv6_elem (x : Ipv6) : Needs env (.elem (.named D.ipv6)) [x.toV] ⟨1, .zero, false⟩ :=
  .elemDelegate D.ipv6_decl rfl rfl rfl (.elemSmall rfl (by simp [Ipv6.octets]))

theorem has_ipv6 (x : Ipv6) : HasType env (.named D.ipv6) x.toV ⟨2, .zero, false⟩ :=
  .bodyStruct D.ipv6_decl (.partsDelegate rfl rfl rfl (.bodyWrapped rfl (.fieldSingle rfl (.elemSmall rfl (by simp [Ipv6.octets])))))

theorem has_ip (x : Ip) : HasType env (.named D.ip) x.toV ⟨4, .zero, false⟩ := by
  have hw : (Ty.named D.ip).isWrapped env = true := by simp [Ty.isWrapped, D.ip_decl, ipDecl]
  cases x with
  | v4 x => exact .bodyWrapped hw (.fieldSingle rfl (.elemVariant D.ip_decl rfl (.partsDelegate rfl rfl rfl (has_ipv4 D x))))
  | v6 x => exact .bodyWrapped hw (.fieldSingle rfl (.elemVariant D.ip_decl rfl (.partsDelegate rfl rfl rfl (has_ipv6 D x))))

theorem has_u16 (n : UInt16) : Needs env (.field (.prim (.int .u16))) [.num n.toNat] ⟨0, .zero, false⟩ := by
  have := n.toNat_lt
  exact .fieldSingle rfl (.elemPrim (.int (by simp only [IntTy.min]; omega) (by simp only [IntTy.max]; omega)))
theorem has_u32 (n : UInt32) : Needs env (.field (.prim (.int .u32))) [.num n.toNat] ⟨0, .zero, false⟩ := by
  have := n.toNat_lt
  exact .fieldSingle rfl (.elemPrim (.int (by simp only [IntTy.min]; omega) (by simp only [IntTy.max]; omega)))
theorem has_u64 (n : UInt64) : Needs env (.field (.prim (.int .u64))) [.num n.toNat] ⟨0, .zero, false⟩ := by
  have := n.toNat_lt
  exact .fieldSingle rfl (.elemPrim (.int (by simp only [IntTy.min]; omega) (by simp only [IntTy.max]; omega)))

theorem _root_.Fourleaf.Needs.cast {it : Item} {vs : List V} {k k' : Need} (h : Needs env it vs k) (e : k = k') : Needs env it vs k' := e ▸ h

theorem has_dur (x : Dur) : HasType env (.named D.dur) x.toV ⟨1, .zero, false⟩ := by
  refine .bodyStruct D.dur_decl (.partsPlain rfl ?_ (.cast (.fieldsCons (has_u64 x.secs) (.fieldsCons (has_u32 x.nanos) .fieldsNil)) rfl))
  have := x.lt
  simp only [decide_eq_true_eq]; omega

theorem has_sockV4 (x : SockV4) : HasType env (.named D.sockV4) x.toV ⟨2, .zero, false⟩ :=
  .bodyStruct D.sockV4_decl (.partsPlain rfl rfl (.cast (.fieldsCons (.fieldSingle rfl (has_ipv4_elem D x.ip)) (.fieldsCons (has_u16 x.port) .fieldsNil)) rfl))

theorem has_sockV6 (x : SockV6) : HasType env (.named D.sockV6) x.toV ⟨2, .zero, false⟩ :=
  .bodyStruct D.sockV6_decl (.partsPlain rfl rfl (.cast (.fieldsCons (.fieldSingle rfl (has_ipv6_elem D x.ip)) (.fieldsCons (has_u16 x.port)
    (.fieldsCons (has_u32 x.flowinfo) (.fieldsCons (has_u32 x.scope) .fieldsNil)))) rfl))

theorem has_sock (x : Sock) : HasType env (.named D.sock) x.toV ⟨4, .zero, false⟩ := by
  have hw : (Ty.named D.sock).isWrapped env = true := by simp [Ty.isWrapped, D.sock_decl, sockDecl]
  cases x with
  | v4 x => exact .bodyWrapped hw (.fieldSingle rfl (.elemVariant D.sock_decl rfl (.partsDelegate rfl rfl rfl (has_sockV4 D x))))
  | v6 x => exact .bodyWrapped hw (.fieldSingle rfl (.elemVariant D.sock_decl rfl (.partsDelegate rfl rfl rfl (has_sockV6 D x))))

/-! ## What is written -/

theorem ser_ipv4_body (x : Ipv4) (n : Nat) : (sops env (n + 3)).body (.named D.ipv4) x.toV = some [.blobData 1 x.octets, .endStruct] := by
  simp [sops, bodySer, Ipv4.toV, D.ipv4_decl, ipv4Decl, macroBodySer, serFields, defaultBodySer, fieldSer, Ty.isU8, V.ofBytes, bytesOf_map]

theorem ser_ipv6_body (x : Ipv6) (n : Nat) : (sops env (n + 3)).body (.named D.ipv6) x.toV = some [.blobData 1 x.octets, .endStruct] := by
  simp [sops, bodySer, Ipv6.toV, D.ipv6_decl, ipv6Decl, macroBodySer, serFields, defaultBodySer, fieldSer, Ty.isU8, V.ofBytes, bytesOf_map]

theorem ser_variant {i : Nat} {variants : List (UInt64 × Body)} (hd : env.decl i = .enum variants none) {d : UInt64} {name : String} {t : Ty}
    (hf : variants.find? (fun x => x.1 = d) = some (d, ⟨[], .delegate name t, fun _ => true⟩)) {v : V} {cs : List WCall} {n : Nat}
    (h : (sops env n).body t v = some cs) : (sops env (n + 3)).body (.named i) (.variant d [v]) = some (.enum 1 d :: cs ++ [.endStruct]) := by
  have h1 : (sops env (n + 1)).element (.named i) 1 (.variant d [v]) = some (.enum 1 d :: cs) := by
    simp only [sops, elementSer, hd, hf, macroBodySer, serFields, Option.bind_some, h, Option.map_some, List.nil_append]
  simp only [sops, bodySer, defaultBodySer, fieldSer] at h1 ⊢
  rw [h1]; rfl

theorem ser_ip (x : Ip) : ∃ cs, SerializesBody env (.named D.ip) x.toV cs ∧ callToks cs = x.message := by
  cases x with
  | v4 x => exact ⟨_, ⟨6, ser_variant D.ip_decl rfl (ser_ipv4_body D x 0)⟩, rfl⟩
  | v6 x => exact ⟨_, ⟨6, ser_variant D.ip_decl rfl (ser_ipv6_body D x 0)⟩, by
      simp [callToks, WCall.toks, Ip.message, Ipv6.message, Ipv6.octets_eq]⟩

theorem ser_int (k : IntTy) (tag : Byte) (i : Int) (h : k.min ≤ i ∧ i ≤ k.max) (n : Nat) :
    (sops env (n + 2)).field (.prim (.int k)) tag (.num i) = some [k.call tag i] := by
  simp only [sops, fieldSer, elementSer, Prim.ser, if_pos h]

theorem u16_range (n : UInt16) : IntTy.u16.min ≤ (n.toNat : Int) ∧ (n.toNat : Int) ≤ IntTy.u16.max := by
  have := n.toNat_lt; simp only [IntTy.min, IntTy.max]; omega
theorem u32_range (n : UInt32) : IntTy.u32.min ≤ (n.toNat : Int) ∧ (n.toNat : Int) ≤ IntTy.u32.max := by
  have := n.toNat_lt; simp only [IntTy.min, IntTy.max]; omega
theorem u64_range (n : UInt64) : IntTy.u64.min ≤ (n.toNat : Int) ∧ (n.toNat : Int) ≤ IntTy.u64.max := by
  have := n.toNat_lt; simp only [IntTy.min, IntTy.max]; omega

theorem ser_dur (x : Dur) : ∃ cs, SerializesBody env (.named D.dur) x.toV cs ∧ callToks cs = x.message := by
  refine ⟨[.u64 1 x.secs, .u32 2 x.nanos, .endStruct], ⟨3, ?_⟩, ?_⟩
  · have h1 := ser_int (env := env) .u64 1 x.secs.toNat (u64_range _) 0
    have h2 := ser_int (env := env) .u32 2 x.nanos.toNat (u32_range _) 0
    rw [sops]
    simp only [bodySer, Dur.toV, D.dur_decl, durDecl, macroBodySer, serFields, h1, h2, Option.bind_some, Option.map_some, IntTy.call]
    simp
  · simp [callToks, WCall.toks, Dur.message]

theorem ser_ipv4_field (x : Ipv4) (tag : Byte) (n : Nat) : (sops env (n + 3)).field (.named D.ipv4) tag x.toV = some [.blobData tag x.octets] := by
  simp [sops, fieldSer, elementSer, Ipv4.toV, D.ipv4_decl, ipv4Decl, Ty.isU8, V.ofBytes, bytesOf_map]

theorem ser_ipv6_field (x : Ipv6) (tag : Byte) (n : Nat) : (sops env (n + 3)).field (.named D.ipv6) tag x.toV = some [.blobData tag x.octets] := by
  simp [sops, fieldSer, elementSer, Ipv6.toV, D.ipv6_decl, ipv6Decl, Ty.isU8, V.ofBytes, bytesOf_map]

theorem ser_sockV4_body (x : SockV4) : (sops env 4).body (.named D.sockV4) x.toV = some [.blobData 1 x.ip.octets, .u16 2 x.port, .endStruct] := by
  have h1 := ser_ipv4_field D x.ip 1 0
  have h2 := ser_int (env := env) .u16 2 x.port.toNat (u16_range _) 1
  rw [sops]
  simp only [bodySer, SockV4.toV, D.sockV4_decl, sockV4Decl, macroBodySer, serFields, h1, h2, Option.bind_some, Option.map_some, IntTy.call]
  simp

theorem ser_sockV6_body (x : SockV6) :
    (sops env 4).body (.named D.sockV6) x.toV = some [.blobData 1 x.ip.octets, .u16 2 x.port, .u32 3 x.flowinfo, .u32 4 x.scope, .endStruct] := by
  have h1 := ser_ipv6_field D x.ip 1 0
  have h2 := ser_int (env := env) .u16 2 x.port.toNat (u16_range _) 1
  have h3 := ser_int (env := env) .u32 3 x.flowinfo.toNat (u32_range _) 1
  have h4 := ser_int (env := env) .u32 4 x.scope.toNat (u32_range _) 1
  rw [sops]
  simp only [bodySer, SockV6.toV, D.sockV6_decl, sockV6Decl, macroBodySer, serFields, h1, h2, h3, h4, Option.bind_some, Option.map_some, IntTy.call]
  simp

theorem ser_sock (x : Sock) : ∃ cs, SerializesBody env (.named D.sock) x.toV cs ∧ callToks cs = x.message := by
  cases x with
  | v4 x => exact ⟨_, ⟨7, ser_variant D.sock_decl rfl (ser_sockV4_body D x)⟩, by
      simp [callToks, WCall.toks, Sock.message, SockV4.message, Ipv4.octets]⟩
  | v6 x => exact ⟨_, ⟨7, ser_variant D.sock_decl rfl (ser_sockV6_body D x)⟩, by
      simp [callToks, WCall.toks, Sock.message, SockV6.message, Ipv6.octets_eq]⟩

/-! ## Whatever is of the type can be constructed -/

theorem inv_bytes {n : Nat} {vs : List V} {k : Need} (h : Needs env (.elem (.small n u8)) vs k) : ∃ d : List Byte, vs = [.ofBytes d] ∧ d.length = n := by
  cases h with
  | elemSmall h1 h2 => exact ⟨_, rfl, h1⟩
  | elemColl h1 h2 => cases h1

theorem inv_bytes_body {n : Nat} {vs : List V} {k : Need} (h : Needs env (.body (.small n u8)) vs k) : ∃ d : List Byte, vs = [.ofBytes d] ∧ d.length = n := by
  cases h with
  | bodyWrapped h1 h2 =>
    cases h2 with
    | fieldSingle h3 h4 => exact inv_bytes h4
    | fieldSmall h3 => cases h3

theorem inv_variant {i : Nat} {variants : List (UInt64 × Body)} (hd : env.decl i = .enum variants none) {v : V} {k : Need} (h : HasType env (.named i) v k) :
    ∃ d vs b k', v = .variant d vs ∧ (d, b) ∈ variants ∧ Needs env (.parts b) vs k' := by
  cases h with
  | bodyStruct h1 _ => rw [hd] at h1; cases h1
  | bodyWrapped _ h2 =>
    cases h2 with
    | fieldSingle _ h4 =>
      cases h4 with
      | elemStruct h1 => rw [hd] at h1; cases h1
      | elemDelegate h1 => rw [hd] at h1; cases h1
      | elemVariant h1 h2 h3 => rw [hd] at h1; cases h1; exact ⟨_, _, _, _, rfl, List.mem_of_find?_eq_some h2, h3⟩
      | elemCatchAll h1 => rw [hd] at h1; cases h1
      | elemColl h1 => cases h1

theorem inv_delegate {b : Body} {name : String} {t : Ty} (hb : b.tail = .delegate name t) {vs : List V} {k : Need} (h : Needs env (.parts b) vs k) :
    ∃ v k', vs = [v] ∧ HasType env t v k' := by
  cases h with
  | partsPlain h1 => rw [hb] at h1; cases h1
  | partsDelegate h1 h2 h3 h4 => rw [hb] at h1; cases h1; exact ⟨_, _, rfl, h4⟩
  | partsUnknown h1 => rw [hb] at h1; cases h1

theorem ipv4_of {d : List Byte} (h : d.length = 4) : ∃ x, Ipv4.ofV (.seq [.ofBytes d]) = some x := by
  match d, h with
  | [a, b, c, d], _ => exact ⟨⟨a, b, c, d⟩, Ipv4.ofV_toV ⟨a, b, c, d⟩⟩

theorem ipv6_of {d : List Byte} (h : d.length = 16) : ∃ x, Ipv6.ofV (.seq [.ofBytes d]) = some x := by
  match d, h with
  | [a, b, c, d, e, f, g, h, i, j, k, l, m, n, o, p], _ => exact ⟨_, by
      simp only [Ipv6.ofV, bytes_ofBytes, segAt]; rfl⟩

theorem inv_ipv4 {v : V} {k : Need} (h : HasType env (.named D.ipv4) v k) : ∃ x, Ipv4.ofV v = some x := by
  cases h with
  | bodyStruct h1 h2 =>
    rw [D.ipv4_decl] at h1; cases h1
    obtain ⟨v, k', rfl, h3⟩ := inv_delegate rfl h2
    obtain ⟨d, hd, h4⟩ := inv_bytes_body h3
    cases hd; exact ipv4_of h4
  | bodyWrapped h1 h2 => simp [Ty.isWrapped, D.ipv4_decl, ipv4Decl] at h1

theorem inv_ipv6 {v : V} {k : Need} (h : HasType env (.named D.ipv6) v k) : ∃ x, Ipv6.ofV v = some x := by
  cases h with
  | bodyStruct h1 h2 =>
    rw [D.ipv6_decl] at h1; cases h1
    obtain ⟨v, k', rfl, h3⟩ := inv_delegate rfl h2
    obtain ⟨d, hd, h4⟩ := inv_bytes_body h3
    cases hd; exact ipv6_of h4
  | bodyWrapped h1 h2 => simp [Ty.isWrapped, D.ipv6_decl, ipv6Decl] at h1

theorem inv_ip {v : V} {k : Need} (h : HasType env (.named D.ip) v k) : ∃ x, Ip.ofV v = some x := by
  obtain ⟨d, vs, b, k', rfl, h1, h2⟩ := inv_variant D.ip_decl h
  simp only [List.mem_cons, Prod.mk.injEq, List.not_mem_nil, or_false] at h1
  rcases h1 with ⟨rfl, rfl⟩ | ⟨rfl, rfl⟩
  · obtain ⟨v, k', rfl, h3⟩ := inv_delegate rfl h2
    obtain ⟨x, hx⟩ := inv_ipv4 D h3
    exact ⟨.v4 x, by simp [Ip.ofV, hx]⟩
  · obtain ⟨v, k', rfl, h3⟩ := inv_delegate rfl h2
    obtain ⟨x, hx⟩ := inv_ipv6 D h3
    exact ⟨.v6 x, by simp [Ip.ofV, hx]⟩

theorem inv_int {k : IntTy} {v : V} {n : Need} (h : Needs env (.field (.prim (.int k))) [v] n) : ∃ i, v = .num i ∧ k.min ≤ i ∧ i ≤ k.max := by
  cases h with
  | fieldSingle _ h2 =>
    cases h2 with
    | elemPrim h3 => cases h3 with | int h4 h5 => exact ⟨_, rfl, h4, h5⟩
    | elemColl h1 => cases h1

theorem inv_ipv4_field {v : V} {n : Need} (h : Needs env (.field (.named D.ipv4)) [v] n) : ∃ x, Ipv4.ofV v = some x := by
  cases h with
  | fieldSingle _ h2 =>
    cases h2 with
    | elemStruct h1 h2 => rw [D.ipv4_decl] at h1; cases h1; cases h2
    | elemDelegate h1 h2 h3 h4 h5 =>
      rw [D.ipv4_decl] at h1; cases h1; cases h2
      obtain ⟨d, hd, h6⟩ := inv_bytes h5
      cases hd; exact ipv4_of h6
    | elemVariant h1 => rw [D.ipv4_decl] at h1; cases h1
    | elemCatchAll h1 => rw [D.ipv4_decl] at h1; cases h1
    | elemColl h1 => cases h1

theorem inv_ipv6_field {v : V} {n : Need} (h : Needs env (.field (.named D.ipv6)) [v] n) : ∃ x, Ipv6.ofV v = some x := by
  cases h with
  | fieldSingle _ h2 =>
    cases h2 with
    | elemStruct h1 h2 => rw [D.ipv6_decl] at h1; cases h1; cases h2
    | elemDelegate h1 h2 h3 h4 h5 =>
      rw [D.ipv6_decl] at h1; cases h1; cases h2
      obtain ⟨d, hd, h6⟩ := inv_bytes h5
      cases hd; exact ipv6_of h6
    | elemVariant h1 => rw [D.ipv6_decl] at h1; cases h1
    | elemCatchAll h1 => rw [D.ipv6_decl] at h1; cases h1
    | elemColl h1 => cases h1

theorem inv_fields_cons {d : FieldDecl} {ds : List FieldDecl} {vs : List V} {k : Need} (h : Needs env (.fields (d :: ds)) vs k) :
    ∃ v ws k1 k2, vs = v :: ws ∧ Needs env (.field d.ty) [v] k1 ∧ Needs env (.fields ds) ws k2 := by
  cases h with | fieldsCons h1 h2 => exact ⟨_, _, _, _, rfl, h1, h2⟩

theorem inv_fields_nil {vs : List V} {k : Need} (h : Needs env (.fields []) vs k) : vs = [] := by cases h; rfl

theorem inv_struct {i : Nat} {b : Body} (hd : env.decl i = .struct b) (hb : b.tail = .plain) {v : V} {k : Need} (h : HasType env (.named i) v k) :
    ∃ vs k', v = .seq vs ∧ b.check vs = true ∧ Needs env (.fields b.fields) vs k' := by
  cases h with
  | bodyStruct h1 h2 =>
    rw [hd] at h1; cases h1
    cases h2 with
    | partsPlain h3 h4 h5 => exact ⟨_, _, rfl, h4, h5⟩
    | partsDelegate h3 => rw [hb] at h3; cases h3
    | partsUnknown h3 => rw [hb] at h3; cases h3
  | bodyWrapped h1 h2 => simp [Ty.isWrapped, hd] at h1

theorem inv_dur {v : V} {k : Need} (h : HasType env (.named D.dur) v k) : ∃ x, Dur.ofV v = some x := by
  obtain ⟨vs, k', rfl, h1, h2⟩ := inv_struct D.dur_decl rfl h
  obtain ⟨v1, vs, k1, k2, rfl, h3, h4⟩ := inv_fields_cons h2
  obtain ⟨v2, vs, k1, k2, rfl, h5, h6⟩ := inv_fields_cons h4
  cases inv_fields_nil h6
  obtain ⟨a, rfl, ha⟩ := inv_int h3
  obtain ⟨b, rfl, hb⟩ := inv_int h5
  simp only [decide_eq_true_eq, IntTy.min, IntTy.max] at h1 ha hb
  refine ⟨⟨UInt64.ofNat a.toNat, UInt32.ofNat b.toNat, ?_⟩, ?_⟩
  · rw [UInt32.toNat_ofNat']; omega
  · simp only [Dur.ofV, V.u64?, V.u32?]
    rw [if_pos (by omega), if_pos (by omega)]
    simp only [Option.bind_some]
    rw [dif_pos]

theorem u16_of {i : Int} (h : IntTy.u16.min ≤ i ∧ i ≤ IntTy.u16.max) : ∃ n, (V.num i).u16? = some n := by
  simp only [IntTy.min, IntTy.max] at h
  exact ⟨_, by simp only [V.u16?]; rw [if_pos (by omega)]⟩
theorem u32_of {i : Int} (h : IntTy.u32.min ≤ i ∧ i ≤ IntTy.u32.max) : ∃ n, (V.num i).u32? = some n := by
  simp only [IntTy.min, IntTy.max] at h
  exact ⟨_, by simp only [V.u32?]; rw [if_pos (by omega)]⟩

theorem inv_sockV4 {v : V} {k : Need} (h : HasType env (.named D.sockV4) v k) : ∃ x, SockV4.ofV v = some x := by
  obtain ⟨vs, k', rfl, h1, h2⟩ := inv_struct D.sockV4_decl rfl h
  obtain ⟨v1, vs, k1, k2, rfl, h3, h4⟩ := inv_fields_cons h2
  obtain ⟨v2, vs, k1, k2, rfl, h5, h6⟩ := inv_fields_cons h4
  cases inv_fields_nil h6
  obtain ⟨a, ha⟩ := inv_ipv4_field D h3
  obtain ⟨b, rfl, hb⟩ := inv_int h5
  obtain ⟨n, hn⟩ := u16_of hb
  exact ⟨⟨a, n⟩, by simp only [SockV4.ofV, ha, hn, Option.bind_some, Option.map_some]⟩

theorem inv_sockV6 {v : V} {k : Need} (h : HasType env (.named D.sockV6) v k) : ∃ x, SockV6.ofV v = some x := by
  obtain ⟨vs, k', rfl, h1, h2⟩ := inv_struct D.sockV6_decl rfl h
  obtain ⟨v1, vs, k1, k2, rfl, h3, h4⟩ := inv_fields_cons h2
  obtain ⟨v2, vs, k1, k2, rfl, h5, h6⟩ := inv_fields_cons h4
  obtain ⟨v3, vs, k1, k2, rfl, h7, h8⟩ := inv_fields_cons h6
  obtain ⟨v4, vs, k1, k2, rfl, h9, h10⟩ := inv_fields_cons h8
  cases inv_fields_nil h10
  obtain ⟨a, ha⟩ := inv_ipv6_field D h3
  obtain ⟨b, rfl, hb⟩ := inv_int h5
  obtain ⟨n, hn⟩ := u16_of hb
  obtain ⟨c, rfl, hc⟩ := inv_int h7
  obtain ⟨m, hm⟩ := u32_of hc
  obtain ⟨d, rfl, hd⟩ := inv_int h9
  obtain ⟨o, ho⟩ := u32_of hd
  exact ⟨⟨a, n, m, o⟩, by simp only [SockV6.ofV, ha, hn, hm, ho, Option.bind_some, Option.map_some]⟩

theorem inv_sock {v : V} {k : Need} (h : HasType env (.named D.sock) v k) : ∃ x, Sock.ofV v = some x := by
  obtain ⟨d, vs, b, k', rfl, h1, h2⟩ := inv_variant D.sock_decl h
  simp only [List.mem_cons, Prod.mk.injEq, List.not_mem_nil, or_false] at h1
  rcases h1 with ⟨rfl, rfl⟩ | ⟨rfl, rfl⟩
  · obtain ⟨v, k', rfl, h3⟩ := inv_delegate rfl h2
    obtain ⟨x, hx⟩ := inv_sockV4 D h3
    exact ⟨.v4 x, by simp [Sock.ofV, hx]⟩
  · obtain ⟨v, k', rfl, h3⟩ := inv_delegate rfl h2
    obtain ⟨x, hx⟩ := inv_sockV6 D h3
    exact ⟨.v6 x, by simp [Sock.ofV, hx]⟩

theorem reads_int {cfg : Config} {k : IntTy} {d : Nat} {vals : List Val} {v : V} {c : Stats} (h : Reads env cfg (.field (.prim (.int k))) d vals [v] c) :
    ∃ n i, vals = [.int n] ∧ v = .num i ∧ k.min ≤ i ∧ i ≤ k.max ∧ (n.toNat : Int) = k.wire i ∧ c = .zero := by
  cases h with
  | fieldSingle _ h2 =>
    cases h2 with
    | elemPrim h3 => cases h3 with | int h4 h5 h6 => exact ⟨_, _, rfl, rfl, h4, h5, h6, rfl⟩
    | elemStruct h1 => cases h1

theorem read_int {cfg : Config} {k : IntTy} {d : Nat} {n : UInt64} {i : Int} (h1 : k.min ≤ i) (h2 : i ≤ k.max) (h3 : (n.toNat : Int) = k.wire i) :
    Reads env cfg (.field (.prim (.int k))) d [.int n] [.num i] .zero := .fieldSingle rfl (.elemPrim (.int h1 h2 h3))

/-! ## C56 -/

variable (henv : env.Ok) (hwf : env.wf)
include henv hwf

/-- **C56** `Ipv4Addr`: written as a blob of the four octets; constructing it never fails. -/
theorem c56_ipv4 : StdOk env (.named D.ipv4) Ipv4.toV Ipv4.ofV Ipv4.message 2 :=
  stdOk henv hwf rfl Ipv4.ofV_toV (has_ipv4 D) (fun x => ⟨_, ⟨3, ser_ipv4_body D x 0⟩, rfl⟩) fun _ _ h => inv_ipv4 D h

/-- **C56** `Ipv6Addr`: written as a blob of sixteen octets in network byte order. -/
theorem c56_ipv6 : StdOk env (.named D.ipv6) Ipv6.toV Ipv6.ofV Ipv6.message 2 :=
  stdOk henv hwf rfl Ipv6.ofV_toV (has_ipv6 D) (fun x => ⟨_, ⟨3, ser_ipv6_body D x 0⟩, by
    simp [callToks, WCall.toks, Ipv6.message, Ipv6.octets_eq]⟩) fun _ _ h => inv_ipv6 D h

/-- **C56** `IpAddr`. -/
theorem c56_ip : StdOk env (.named D.ip) Ip.toV Ip.ofV Ip.message 4 :=
  stdOk henv hwf rfl Ip.ofV_toV (has_ip D) (ser_ip D) fun _ _ h => inv_ip D h

/-- **C56** `Duration`: whatever is accepted has less than 10^9 nanoseconds (otherwise `Duration::new` could overflow and panic). -/
theorem c56_duration : StdOk env (.named D.dur) Dur.toV Dur.ofV Dur.message 1 :=
  stdOk henv hwf rfl Dur.ofV_toV (has_dur D) (ser_dur D) fun _ _ h => inv_dur D h

/-- **C56** `SocketAddrV4`. -/
theorem c56_sockV4 : StdOk env (.named D.sockV4) SockV4.toV SockV4.ofV SockV4.message 2 :=
  stdOk henv hwf rfl SockV4.ofV_toV (has_sockV4 D) (fun x => ⟨_, ⟨4, ser_sockV4_body D x⟩, by
    simp [callToks, WCall.toks, SockV4.message, Ipv4.octets]⟩) fun _ _ h => inv_sockV4 D h

/-- **C56** `SocketAddrV6`. -/
theorem c56_sockV6 : StdOk env (.named D.sockV6) SockV6.toV SockV6.ofV SockV6.message 2 :=
  stdOk henv hwf rfl SockV6.ofV_toV (has_sockV6 D) (fun x => ⟨_, ⟨4, ser_sockV6_body D x⟩, by
    simp [callToks, WCall.toks, SockV6.message, Ipv6.octets_eq]⟩) fun _ _ h => inv_sockV6 D h

/-- **C56** `SocketAddr`. -/
theorem c56_sock : StdOk env (.named D.sock) Sock.toV Sock.ofV Sock.message 4 :=
  stdOk henv hwf rfl Sock.ofV_toV (has_sock D) (ser_sock D) fun _ _ h => inv_sock D h

/-- **C56** Exactly which messages are a `Duration`: one field 1, one field 2, both numbers, the second one below 10^9 (and nothing else, unless unknown fields are ignored). -/
theorem c56_duration_exact (cfg : Config) (l : Fields) (m : List Byte) (hm : Message l m) (hlen : m.length < U64MAX) (v : V) (c : Stats) :
    Accepts env (.named D.dur) cfg m v c ↔
      ∃ secs nanos : UInt64, occ 1 l = [.int secs] ∧ occ 2 l = [.int nanos] ∧ nanos.toNat < 1000000000 ∧ v = .seq [.num secs.toNat, .num nanos.toNat] ∧ c = .zero ∧
        1 ≤ cfg.recursionLimit ∧ (cfg.ignoreUnknownFields = true ∨ ∀ x ∈ l, x.1 = 1 ∨ x.1 = 2) := by
  rw [c54_accepts env henv hwf _ rfl cfg l m hm hlen]
  constructor
  · rintro ⟨h, hf⟩
    cases h with
    | bodyStruct h1 h2 =>
      rw [D.dur_decl] at h1; cases h1
      cases h2 with
      | partsPlain h3 h4 h5 h6 =>
        cases h6 with
        | fieldsCons g1 g2 g3 =>
          cases g3 with
          | fieldsCons g4 g5 g6 =>
            cases g6
            obtain ⟨n1, i1, o1, rfl, a1, b1, w1, rfl⟩ := reads_int g2
            obtain ⟨n2, i2, o2, rfl, a2, b2, w2, rfl⟩ := reads_int g5
            simp only [decide_eq_true_eq] at h4
            simp only [IntTy.wire, IntTy.signed, Bool.false_eq_true, if_false] at w1 w2
            refine ⟨n1, n2, o1, o2, by omega, by rw [w1, w2], rfl, g1, ?_⟩
            simpa [Config.Ignores] using h5
      | partsDelegate h3 => cases h3
      | partsUnknown h3 => cases h3
    | bodyWrapped h1 h2 => simp [Ty.isWrapped, D.dur_decl, durDecl] at h1
  · rintro ⟨secs, nanos, h1, h2, h3, rfl, rfl, h4, h5⟩
    have e1 := secs.toNat_lt
    have e2 := nanos.toNat_lt
    refine ⟨?_, Nat.zero_le _, Nat.zero_le _⟩
    refine .bodyStruct D.dur_decl (.partsPlain rfl ?_ ?_ ?_)
    · simp only [decide_eq_true_eq]; omega
    · simpa [Config.Ignores] using h5
    · have r1 : Reads env cfg (.field (.prim (.int .u64))) 1 (occ 1 l) [.num secs.toNat] .zero := by
        rw [h1]; exact read_int (by simp only [IntTy.min]; omega) (by simp only [IntTy.max]; omega) (by simp [IntTy.wire, IntTy.signed])
      have r2 : Reads env cfg (.field (.prim (.int .u32))) 1 (occ 2 l) [.num nanos.toNat] .zero := by
        rw [h2]; exact read_int (by simp only [IntTy.min]; omega) (by simp only [IntTy.max]; omega) (by simp [IntTy.wire, IntTy.signed])
      exact .fieldsCons (c := .zero) (c' := .zero) (x := ⟨1, _, _⟩) h4 r1 (.fieldsCons (c := .zero) (c' := .zero) (x := ⟨2, _, _⟩) h4 r2 .fieldsNil)

/-- **C56** In particular a `Duration` with 10^9 nanoseconds or more is rejected. -/
theorem c56_duration_range (cfg : Config) (l : Fields) (m : List Byte) (hm : Message l m) (hlen : m.length < U64MAX) (n : UInt64) (hn : Val.int n ∈ occ 2 l)
    (h : 1000000000 ≤ n.toNat) : Rejects env (.named D.dur) cfg m := by
  refine (accepts_or_rejects env henv hwf _ rfl cfg l m hm hlen).resolve_left ?_
  rintro ⟨v, c, h1⟩
  obtain ⟨_, n', -, h2, h3, -⟩ := (c56_duration_exact D henv hwf cfg l m hm hlen v c).1 h1
  rw [h2, List.mem_singleton] at hn
  cases hn; omega

theorem std_produces {t : Ty} {v : V} {k : Need} (ht : HasType env t v k) (hwt : t.wf false = true) {cs : List WCall} (g1 : SerializesBody env t v cs) :
    Produces env t v (canonToks (callToks cs)) ∧ ((canonToks (callToks cs)).length < U64MAX → ∀ cfg, k.Within cfg → Accepts env t cfg (canonToks (callToks cs)) v k.used) := by
  obtain ⟨cs', l, e1, e2, e3⟩ := tree_roundtrip henv ht
  cases serializesBody_unique g1 e1
  refine ⟨⟨cs ++ [.commit], ⟨cs, g1, rfl⟩, ?_, fun w hw hb hroom => ?_⟩, fun hlen cfg hk => ?_⟩
  · rintro _ ⟨b, h4, rfl⟩; rw [serializesBody_unique g1 h4]
  · have hv : ∀ c ∈ cs ++ [.commit], ∀ t ∈ c.toks, t.Valid := by
      intro c hc
      rcases List.mem_append.1 hc with hc | hc
      · exact e2.valid c hc
      · cases List.mem_singleton.1 hc; intro t ht; cases ht
    rw [← callToks_commit] at hroom ⊢
    obtain ⟨w', f1, f2, -, -, f3⟩ := c09_documented_format (cs ++ [.commit]) hv w hw hb hroom
    exact ⟨w', f1, f3, f2⟩
  · exact (c54_accepts env henv hwf t hwt cfg l _ e2.message hlen v k.used).2 ⟨(deTree_iff henv hwf hwt).1 (e3 cfg hk).1, (e3 cfg hk).2⟩

/-- **C56** `Result<T, E>`: an enum with discriminant 1 (`Ok`) or 2 (`Err`) around the message of the content. It is read back to the same variant and content, and nothing else is accepted. -/
theorem c56_result (r : Nat) (t e : Ty) (hd : env.decl r = resultDecl t e) :
    (∀ v k, HasType env t v k → ∃ m, Produces env t v m ∧ Produces env (.named r) (.variant 1 [v]) (0x01 :: 0x01 :: m ++ [0x00]) ∧
      (m.length + 3 < U64MAX → ∀ cfg, k.nest.nest.Within cfg → Accepts env (.named r) cfg (0x01 :: 0x01 :: m ++ [0x00]) (.variant 1 [v]) k.used)) ∧
    (∀ v k, HasType env e v k → ∃ m, Produces env e v m ∧ Produces env (.named r) (.variant 2 [v]) (0x01 :: 0x02 :: m ++ [0x00]) ∧
      (m.length + 3 < U64MAX → ∀ cfg, k.nest.nest.Within cfg → Accepts env (.named r) cfg (0x01 :: 0x02 :: m ++ [0x00]) (.variant 2 [v]) k.used)) ∧
    (∀ cfg s, Inv s → ∀ v st, (deserialize env (.named r) cfg).run (s, .zero) = .ok v st →
      (∃ w k, v = .variant 1 [w] ∧ HasType env t w k) ∨ (∃ w k, v = .variant 2 [w] ∧ HasType env e w k)) := by
  have hw : (Ty.named r).isWrapped env = true := by simp [Ty.isWrapped, hd, resultDecl]
  have hwt : t.wf false = true := by
    have h1 := hwf r; rw [hd] at h1; exact (((h1.1 _ (List.mem_cons_self ..)).2 _ _ rfl)).2
  have hwe : e.wf false = true := by
    have h1 := hwf r; rw [hd] at h1; exact (((h1.1 _ (List.mem_cons_of_mem _ (List.mem_cons_self ..))).2 _ _ rfl)).2
  have go : ∀ (d : UInt64) (name : String) (x : Ty), x.wf false = true →
      [(1, (⟨[], .delegate "t" t, fun _ => true⟩ : Body)), (2, ⟨[], .delegate "e" e, fun _ => true⟩)].find? (fun x => decide (x.1 = d)) = some (d, ⟨[], .delegate name x, fun _ => true⟩) →
      ∀ v k, HasType env x v k → ∃ m, Produces env x v m ∧ Produces env (.named r) (.variant d [v]) (canonTok (.enum 1 d) ++ m ++ [0x00]) ∧
      ((canonTok (.enum 1 d) ++ m ++ [0x00]).length < U64MAX → ∀ cfg, k.nest.nest.Within cfg → Accepts env (.named r) cfg (canonTok (.enum 1 d) ++ m ++ [0x00]) (.variant d [v]) k.used) := by
    intro d name x hx hf v k h
    have hty : HasType env (.named r) (.variant d [v]) k.nest.nest := .bodyWrapped hw (.fieldSingle rfl (.elemVariant hd hf (.partsDelegate rfl rfl rfl h)))
    obtain ⟨cs, l, e1, -⟩ := tree_roundtrip henv h
    obtain ⟨n, e3⟩ := e1
    have h1 := std_produces henv hwf h hx ⟨n, e3⟩
    have h2 := std_produces henv hwf hty rfl ⟨_, ser_variant (env := env) hd hf e3⟩
    have : canonToks (callToks (WCall.enum 1 d :: cs ++ [.endStruct])) = canonTok (.enum 1 d) ++ canonToks (callToks cs) ++ [0x00] := by
      simp [callToks, WCall.toks, canonToks, canonTok]
    rw [this] at h2
    exact ⟨_, h1.1, h2⟩
  refine ⟨fun v k h => ?_, fun v k h => ?_, fun cfg s hi v st h => ?_⟩
  · obtain ⟨m, h1, h2, h3⟩ := go 1 "t" t hwt rfl v k h
    have e1 : canonTok (.enum 1 1) = [1, 1] := by decide +kernel
    rw [e1] at h2 h3
    exact ⟨m, h1, h2, fun hl => h3 (by simp; omega)⟩
  · obtain ⟨m, h1, h2, h3⟩ := go 2 "e" e hwe rfl v k h
    have e1 : canonTok (.enum 1 2) = [1, 2] := by decide +kernel
    rw [e1] at h2 h3
    exact ⟨m, h1, h2, fun hl => h3 (by simp; omega)⟩
  · obtain ⟨k, hk⟩ := c46_valid env hwf _ rfl cfg s hi v st h
    obtain ⟨d, vs, b, k', rfl, h1, h2⟩ := inv_variant hd hk
    simp only [List.mem_cons, Prod.mk.injEq, List.not_mem_nil, or_false] at h1
    rcases h1 with ⟨rfl, rfl⟩ | ⟨rfl, rfl⟩
    · obtain ⟨w, k'', rfl, h3⟩ := inv_delegate rfl h2
      exact .inl ⟨w, k'', rfl, h3⟩
    · obtain ⟨w, k'', rfl, h3⟩ := inv_delegate rfl h2
      exact .inr ⟨w, k'', rfl, h3⟩

omit henv hwf

/-! ## A program with these declarations -/

def stdEnv : Env where
  decl
    | 0 => ipv4Decl | 1 => ipv6Decl | 2 => ipDecl 0 1 | 3 => durDecl | 4 => sockV4Decl 0 | 5 => sockV6Decl 1 | 6 => sockDecl 4 5
    | 7 => resultDecl (.named 3) (.prim .string)
    | _ => .struct ⟨[], .plain, fun _ => true⟩
  size := 2
  bound := by
    intro i t ht
    match i with
    | 0 | 1 | 2 | 3 | 4 | 5 | 6 | 7 => revert t; decide
    | _ + 8 => cases ht

def stdDecls : StdDecls stdEnv := ⟨0, 1, 2, 3, 4, 5, 6, rfl, rfl, rfl, rfl, rfl, rfl, rfl⟩

theorem stdEnv_ok : stdEnv.Ok := by
  intro i
  match i with
  | 0 | 1 | 3 | 4 | 5 => show FieldsOk _; decide
  | 2 | 6 | 7 =>
    refine ⟨?_, fun b hb => by cases hb⟩
    intro x hx
    simp only [List.mem_cons, List.not_mem_nil, or_false] at hx
    rcases hx with rfl | rfl <;> (show FieldsOk _; decide)
  | _ + 8 => show FieldsOk _; decide

theorem stdEnv_wf : stdEnv.wf := by
  intro i
  match i with
  | 0 | 1 => exact ⟨fun d hd => (by cases hd), fun name t h => by cases h; exact ⟨rfl, rfl⟩⟩
  | 3 | 4 | 5 => exact ⟨by decide, fun name t h => by cases h⟩
  | 2 | 6 | 7 =>
    refine ⟨?_, fun b hb => by cases hb⟩
    intro x hx
    simp only [List.mem_cons, List.not_mem_nil, or_false] at hx
    rcases hx with rfl | rfl <;> exact ⟨fun d hd => (by cases hd), fun name t h => by cases h; exact ⟨rfl, rfl⟩⟩
  | _ + 8 => exact ⟨by decide, fun name t h => by cases h⟩

def exSock : Sock := .v4 ⟨⟨127, 0, 0, 1⟩, 80⟩
def exSockBytes : List Byte := [0x01, 0x04, 0x81, 0x04, 0x7F, 0x00, 0x00, 0x01, 0x42, 0x50, 0x00, 0x00]
theorem exSock_bytes : canonToks exSock.message = exSockBytes := by decide +kernel

/-- `SocketAddr::V4(127.0.0.1:80)`, as in the tests of `src/retrofit.rs`. -/
example : Produces stdEnv (.named 6) exSock.toV exSockBytes :=
  exSock_bytes ▸ (c56_sock stdDecls stdEnv_ok stdEnv_wf).written exSock

/-- Reading it back. -/
example : ∃ v s', (deserialize stdEnv (.named 6) .default).run (Stream.fromSlice exSockBytes, .zero) = .ok v (s', .zero) ∧ Sock.ofV v = some exSock := by
  obtain ⟨v, s', h1, h2, -⟩ := (c56_sock stdDecls stdEnv_ok stdEnv_wf).readBack exSock .default (by decide) (.fromSlice exSockBytes) []
    (by rw [List.append_nil, exSock_bytes]; exact over_fromSlice _ (by decide)) (by rw [exSock_bytes]; decide)
  exact ⟨v, s', h1, h2⟩

/-- The address in the tests of `src/retrofit.rs`, and its octets. -/
example : canonToks (Ipv6.message ⟨0x1234, 0x5678, 0x9ABC, 0xDEF0, 0xDEAD, 0xBEEF, 0xBAAD, 0xC0DE⟩) =
    [0x81, 0x10, 0x12, 0x34, 0x56, 0x78, 0x9A, 0xBC, 0xDE, 0xF0, 0xDE, 0xAD, 0xBE, 0xEF, 0xBA, 0xAD, 0xC0, 0xDE, 0x00] := by decide +kernel

/-- `duration_rejected_if_nsecs_too_big`. -/
example : Rejects stdEnv (.named 3) .default [0x41, 0x2A, 0x42, 0x80, 0x94, 0xEB, 0xDC, 0x03, 0x00] := by
  refine c56_duration_range stdDecls stdEnv_ok stdEnv_wf .default [(1, .int 42), (2, .int 1000000000)] _ ?_ (by decide) 1000000000 (List.mem_singleton.2 rfl) (by decide)
  have h : Message [(1, .int 42), (2, .int 1000000000)] (canonToks [.int 1 42, .int 2 1000000000, .endStruct]) := message_canon (.int (.int .nil)) (by decide)
  have e : canonToks [.int 1 42, .int 2 1000000000, .endStruct] = [0x41, 0x2A, 0x42, 0x80, 0x94, 0xEB, 0xDC, 0x03, 0x00] := by decide +kernel
  rwa [e] at h

/-- `Ok(Duration::new(42, 256))` of type `Result<Duration, String>`. -/
example : ∃ m, Produces stdEnv (.named 3) (Dur.toV ⟨42, 256, by decide⟩) m ∧ Produces stdEnv (.named 7) (.variant 1 [Dur.toV ⟨42, 256, by decide⟩]) (0x01 :: 0x01 :: m ++ [0x00]) := by
  obtain ⟨m, h1, h2, -⟩ := (c56_result stdEnv_ok stdEnv_wf 7 (.named 3) (.prim .string) rfl).1 _ _ (has_dur stdDecls ⟨42, 256, by decide⟩)
  exact ⟨m, h1, h2⟩

end Fourleaf.Props
