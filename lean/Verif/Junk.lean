import Verif.Strict
import Verif.PropsTok

/-! # Streams over arbitrary bytes

Any input is a sequence of spelled elements followed by bytes that no element starts with. When a deserialiser gets there, it fails. -/

namespace Fourleaf
open Spec

/-- No element starts here. -/
def Stuck (junk : List Byte) : Prop := ∀ tok enc l, EncTok tok enc → junk ≠ enc ++ l

theorem tokenise (m : List Byte) : ∃ ts a junk, m = a ++ junk ∧ EncToks ts a ∧ Stuck junk := by
  by_cases h : Stuck m
  · exact ⟨[], [], m, rfl, .nil, h⟩
  · simp only [Stuck, Classical.not_forall, ne_eq, Classical.not_not] at h
    obtain ⟨tok, enc, l, h1, h2⟩ := h
    have := h1.ne_nil
    obtain ⟨ts, a, junk, e1, e2, e3⟩ := tokenise l
    exact ⟨tok :: ts, enc ++ a, junk, by rw [h2, e1, List.append_assoc], .cons h1 e2, e3⟩
termination_by m.length
decreasing_by subst h2; simp; omega

theorem decodeLoop_slice : ∀ (fuel : Nat) (a : UInt64) (sh : Nat) (s s' : Stream) (n : UInt64), Benign s.inner.sched →
    decodeLoop (readByte false) fuel a sh s = .ok n s' → ∃ k sc, sc <:+ s.inner.sched ∧ s' = advBy s k sc ∧ k ≤ s.rest.length ∧ decodeLoop readSlice fuel a sh s.rest = .ok n (s.rest.drop k) := by
  intro fuel
  induction fuel with
  | zero => intro a sh s s' n _ h; cases h
  | succ fuel ih =>
    intro a sh s s' n hb h
    rw [decodeLoop] at h ⊢
    rcases readByte_spec false s with ⟨h1, sc, h2, h3⟩ | ⟨h1, sc, h2, h3⟩
    · rw [M.bind_err h3] at h; cases h
    · rcases h3 with ⟨b, l, h3, h4⟩ | ⟨-, h4, -⟩ | ⟨h3, -, h4⟩ | ⟨h3, -⟩
      · rw [M.bind_ok h4] at h
        rw [M.bind_ok (show readSlice s.rest = .ok b l by rw [h3]; rfl)]
        have hl : l = s.rest.drop 1 := by rw [h3]; rfl
        dsimp only at h ⊢
        rw [M.ite_apply] at h ⊢
        split at h
        · cases h
        · rename_i c1
          rw [if_neg c1]
          rw [M.ite_apply] at h ⊢
          split at h
          · rename_i c2
            rw [if_pos c2]
            cases h
            exact ⟨1, sc, h2, rfl, by rw [h3]; simp, by rw [hl]; rfl⟩
          · rename_i c2
            rw [if_neg c2]
            rw [M.ite_apply] at h ⊢
            split at h
            · cases h
            · rename_i c3
              rw [if_neg c3]
              obtain ⟨k, sc', g1, g2, g4, g3⟩ := ih _ _ _ _ _ (hb.suffix h2) h
              refine ⟨1 + k, sc', g1.trans h2, by rw [g2, advBy_advBy], by rw [advBy_rest, h3] at g4; rw [h3]; simp at g4 ⊢; omega, ?_⟩
              rw [advBy_rest] at g3
              rw [hl, g3, List.drop_drop]
      · cases h4
      · rw [M.bind_err h4] at h; cases h
      · exact absurd hb h3

/-- An integer that was read was spelled there. -/
theorem decodeU64_inv {s s' : Stream} {n : UInt64} (hb : Benign s.inner.sched) (h : decodeU64 (readByte false) s = .ok n s') :
    ∃ g sc, sc <:+ s.inner.sched ∧ s' = advBy s g.length sc ∧ EncInt n.toNat g ∧ s.rest = g ++ s'.rest := by
  obtain ⟨k, sc, h1, h2, hk, h3⟩ := decodeLoop_slice _ _ _ _ _ _ hb h
  have := decodeLoop_sound s.rest 258 0 0 rfl (by omega) (by decide)
  rw [show 7 * 0 = 0 from rfl, h3] at this
  obtain ⟨g, e1, e2, e3, e4⟩ := this
  have hlen := congrArg List.length e1
  simp only [List.length_append, List.length_drop] at hlen
  refine ⟨g, sc, h1, by rw [h2]; congr 1; omega, ⟨e2, by omega, by simpa using e4.symm⟩, ?_⟩
  rw [h2, advBy_rest]; exact e1

theorem nextBlob_inv {s s' : Stream} {n : Nat} (hb : Benign s.inner.sched) (h : nextBlob s = .ok n s') :
    ∃ g l sc, sc <:+ s.inner.sched ∧ n < 2 ^ 64 ∧ EncInt n g ∧ s.rest = g ++ l ∧
      s' = { advBy s g.length sc with blobEnd := s.pos + g.length + n, commit := some .skipBlob, live := true } := by
  unfold nextBlob at h
  cases hd : decodeU64 (readByte false) s with
  | err e s1 => rw [M.bind_err hd] at h; cases h
  | ok k s1 =>
    rw [M.bind_ok hd] at h
    obtain ⟨g, sc, h1, h2, h3, h4⟩ := decodeU64_inv hb hd
    cases hc : checkAdvance k.toNat s1 with
    | err e s2 => rw [M.bind_err hc] at h; cases h
    | ok x s2 =>
      rw [M.bind_ok hc] at h
      have : s2 = s1 := by
        unfold checkAdvance at hc
        split at hc <;> cases hc
        rfl
      subst this
      cases h
      exact ⟨g, _, sc, h1, k.toNat_lt, h3, h4, by rw [h2]; rfl⟩

/-- The stream never gets beyond the end of its input: it skips blobs by reading them. -/
def NoSeek (s : Stream) : Prop := s.useSeek = false ∨ s.inner.seekable = false

theorem NoSeek.frame {s s' : Stream} (h : NoSeek s) (hf : Frame s s') : NoSeek s' := h.imp (fun h => hf.useSeek.trans h) (fun h => hf.seekable.trans h)

/-- The stream is in a blob that goes beyond the end of the input, and will find out. -/
structure Sunk (s : Stream) : Prop where
  eof : s.eof = false
  commit : s.commit = some .skipBlob
  noSeek : NoSeek s
  within : s.inner.pos ≤ s.inner.data.length
  beyond : s.inner.data.length < s.inner.pos + (s.blobEnd - s.pos)

theorem skipByDiscard_short {s : Stream} {n : Nat} (hn : s.rest.length < n) (hp : n ≤ U64MAX - s.pos) {k : Nat} {s' : Stream} (h : skipByDiscard n s = .ok k s') : k < n ∧ k = s.rest.length := by
  obtain ⟨k', sc, h1, h2, h3, h4⟩ := drain_track_spec n s hp
  unfold skipByDiscard at h
  rcases h4 with ⟨h4, h5⟩ | ⟨h4, h5⟩
  · rw [M.bind_ok h5] at h
    cases h
    simp; omega
  · rw [M.bind_err h5] at h; cases h

theorem skipSeekDirect_noSeek {s : Stream} (n : Nat) (hs : s.inner.seekable = false) (hp : n ≤ U64MAX - s.pos) : skipSeekDirect n s = skipByDiscard n s := by
  unfold skipSeekDirect
  rw [if_neg (by omega)]
  have : innerSeek (.current n) s = .err (.io .other) s := by simp [innerSeek, Inner.seek, hs]
  rw [this]

theorem skipBySeek_noSeek : ∀ (fuel n : Nat) (s : Stream), s.inner.seekable = false → s.rest.length < n → n ≤ U64MAX - s.pos → ∀ k s', skipBySeek fuel n s = .ok k s' → k < n := by
  intro fuel
  induction fuel with
  | zero => intro n s _ _ _ k s' h; cases h
  | succ fuel ih =>
    intro n s hs hn hp k s' h
    rw [skipBySeek] at h
    by_cases hb : n > I64MAX
    · rw [if_pos hb] at h
      obtain ⟨j, sc, h1, h2, h3⟩ := skipSeekDirect_spec (s := s) I64MAX (by omega)
      rcases h3 with ⟨h3, h4⟩ | ⟨h3, h4⟩
      · rw [M.bind_ok h3] at h
        by_cases hk : j < I64MAX
        · rw [if_pos hk] at h
          cases h; omega
        · rw [if_neg hk] at h
          have hk' : j = I64MAX := by omega
          subst hk'
          cases h5 : skipBySeek fuel (n - I64MAX) (advBy s I64MAX sc) with
          | err e s1 => rw [M.bind_err h5] at h; cases h
          | ok k1 s1 =>
            rw [M.bind_ok h5] at h
            have hlt : I64MAX ≤ s.rest.length := by
              rw [skipSeekDirect_noSeek _ hs (by omega)] at h3
              obtain ⟨k', sc', g1, g2, g3, g4⟩ := drain_track_spec I64MAX s (by omega)
              unfold skipByDiscard at h3
              rcases g4 with ⟨g4, g5⟩ | ⟨g4, g5⟩
              · rw [M.bind_ok g5] at h3
                have hl : ([] ++ s.rest.take k').length = I64MAX := (Res.ok.inj h3).1
                simp at hl; omega
              · rw [M.bind_err g5] at h3; cases h3
            have := ih _ (Fourleaf.advBy s I64MAX sc) hs (by rw [advBy_rest]; simp; omega) (by simp; omega) _ _ h5
            cases h; omega
      · rw [M.bind_err h4] at h; cases h
    · rw [if_neg hb, skipSeekDirect_noSeek _ hs hp] at h
      exact (skipByDiscard_short hn hp h).1

theorem Sunk.commit_err {s : Stream} (h : Sunk s) (hi : Inv s) : ∃ e s', Fourleaf.commit s = .err e s' := by
  have hp := hi.pend
  rw [h.commit] at hp; simp at hp
  have hb := h.beyond
  have hr := rest_length s
  have hw := h.within
  have : ∃ e s', skipBlob s = .err e s' := by
    unfold skipBlob
    rw [if_pos (by omega)]
    dsimp only
    cases hx : (if s.useSeek = true then skipBySeek 4 (s.blobEnd - s.pos) else skipByDiscard (s.blobEnd - s.pos)) s with
    | err e s' => exact ⟨_, _, rfl⟩
    | ok k s' =>
      dsimp only
      have hk : k < s.blobEnd - s.pos := by
        by_cases hu : s.useSeek = true
        · rw [if_pos hu] at hx
          rcases h.noSeek with h1 | h1
          · rw [hu] at h1; cases h1
          · exact skipBySeek_noSeek _ _ _ h1 (by omega) (by omega) _ _ hx
        · rw [if_neg hu] at hx
          exact (skipByDiscard_short (by omega) (by omega) hx).1
      rw [if_pos hk]; exact ⟨_, _, rfl⟩
  obtain ⟨e, s', he⟩ := this
  exact ⟨e, { s' with live := false }, by simp [Fourleaf.commit, h.commit, he]⟩

theorem Sunk.advBy {s : Stream} (h : Sunk s) {k : Nat} {sc : List Ev} (hk : k ≤ s.rest.length) (hp : s.pos ≤ s.blobEnd) : Sunk (Fourleaf.advBy s k sc) := by
  have hb := h.beyond
  have hr := rest_length s
  have hw := h.within
  refine ⟨h.eof, h.commit, h.noSeek, ?_, ?_⟩ <;> simp <;> omega

theorem Sunk.nextElementImpl_err {s : Stream} (h : Sunk s) (hi : Inv s) (sp : Bool) : ∃ e s', nextElementImpl sp s = .err e s' := by
  obtain ⟨e, s', he⟩ := h.commit_err hi
  unfold nextElementImpl
  rw [h.eof, if_neg (by simp), M.bind_err he]
  exact ⟨_, _, rfl⟩

theorem Sunk.nextField_err {s : Stream} (h : Sunk s) (hi : Inv s) : ∃ e s', nextField s = .err e s' := by
  obtain ⟨e, s', he⟩ := h.nextElementImpl_err hi true
  unfold nextField
  rw [M.bind_err he]
  exact ⟨_, _, rfl⟩

/-- Whatever a client does that stops at the first error, it stays there. -/
theorem Sunk.exec {β : Type} {o : Op β} (ho : o.calm) {s s' : Stream} {b : β} (h : Sunk s) (hi : Inv s) (hx : o.exec s = .ok b s') : Sunk s' := by
  have hlive : ∀ {α : Type} (m : M Err Stream α) (a : α), (∀ a s', m s = .ok a s' → Sunk s') → onLiveBlob m s = .ok a s' → Sunk s' := by
    intro α m a hm hx
    unfold onLiveBlob at hx
    split at hx
    · exact hm _ _ hx
    · cases hx
  have hp := hi.pend
  rw [h.commit] at hp; simp at hp
  cases o with
  | nextField =>
    obtain ⟨e, s1, he⟩ := h.nextField_err hi
    rw [show Op.nextField.exec s = nextField s from rfl, he] at hx; cases hx
  | skipUp d =>
    change skipUp d s = _ at hx
    unfold skipUp at hx
    rw [skipUpLoop] at hx
    split at hx
    · obtain ⟨e, s1, he⟩ := h.nextElementImpl_err hi false
      rw [M.bind_err (show nextElement s = _ from he)] at hx; cases hx
    · cases hx; exact h
  | pos => cases hx; exact h
  | readFully max =>
    refine hlive (readFully max) b (fun a s' hx => ?_) hx
    unfold readFully at hx
    split at hx
    · cases hx
    · obtain ⟨k, sc, h1, h2, h3, h4⟩ := drain_blob_spec (blobRemaining s) s (Nat.le_refl _) hp.2
      rcases h4 with ⟨-, h4⟩ | ⟨-, h4⟩ <;> rw [h4] at hx <;> cases hx
      exact h.advBy h2 hp.1
  | slice =>
    refine hlive blobSlice b (fun a s' hx => ?_) hx
    unfold blobSlice innerSlice at hx
    rw [M.bind_apply] at hx
    split at hx
    · rename_i a s1 h1
      split at h1
      · cases h1
      · cases h1
        rw [M.bind_ok (M.get_apply s), M.ite_apply] at hx
        split at hx <;> cases hx
        exact h
    · cases hx
  | remaining =>
    refine hlive (fun s => .ok (blobRemaining s) s) b (fun a s' hx => ?_) hx
    cases hx; exact h
  | nextElement | commit | clearEof | eof | structDepth | readOrTrunc _ | read _ => exact ho.elim

theorem Prog.run_sunk {ε U : Type} {D : Err → ε → Prop} : ∀ {α : Type} (p : Prog ε U α), p.Strict D →
    ∀ (s s' : Stream) (u u' : U) (a : α), Inv s → Sunk s → p.run (s, u) = .ok a (s', u') → Sunk s' := by
  intro α p
  induction p with
  | ret a => intro _ s s' u u' a hi h hr; cases hr; exact h
  | fail e => intro _ s s' u u' a hi h hr; cases hr
  | op o => intro ho; exact ho.elim
  | call o f =>
    intro ho s s' u u' a hi h hr
    simp only [Prog.run] at hr
    cases he : o.exec s with
    | err e s1 => rw [he] at hr; dsimp only at hr; split at hr <;> cases hr
    | ok b s1 => rw [he] at hr; cases hr; exact h.exec ho.1 hi he
  | getU => intro _ s s' u u' a hi h hr; cases hr; exact h
  | setU u => intro _ s s' u u' a hi h hr; cases hr; exact h
  | bind p f ihp ihf =>
    intro hp s s' u u' a hi h hr
    simp only [Prog.run] at hr
    have hS := (p.run_safe (s, u) hi).step
    cases h1 : p.run (s, u) with
    | err e st => rw [h1] at hr; cases hr
    | ok b st =>
      rw [h1] at hr hS
      obtain ⟨s1, u1⟩ := st
      dsimp only at hr
      rcases hp with ⟨hp, hf⟩ | ⟨e, he⟩
      · exact ihf b (hf b) _ _ _ _ _ hS.inv (ihp hp _ _ _ _ _ hi h h1) hr
      · rw [he] at hr; cases hr
  | attempt p ih => intro hp; exact hp.elim
  | loop fields init body onErr onEnd ih1 ih2 ih3 =>
    intro hp s s' u u' a hi h hr
    obtain ⟨rfl, h1, h2, h3⟩ := hp
    simp only [Prog.run] at hr
    rw [runLoop] at hr
    obtain ⟨e, s1, he⟩ := h.nextField_err hi
    have : pull true s = .err e s1 := by unfold pull; simp only [if_true, he]
    dsimp only at hr
    rw [this] at hr
    obtain ⟨d, hd, -⟩ := h2 e
    dsimp only at hr
    rw [hd] at hr
    split at hr <;> cases hr

/-- The stream cannot complete the document. -/
def Lost (s : Stream) : Prop := Doomed s ∨ Sunk s

theorem Lost.run {ε U : Type} {D : Err → ε → Prop} {α : Type} {p : Prog ε U α} (hp : p.Strict D) {s s' : Stream} {u u' : U} {a : α} (hi : Inv s) (h : Lost s) (hr : p.run (s, u) = .ok a (s', u')) : Lost s' := by
  rcases h with h | h
  · have := (p.run_safe (s, u) hi).step
    rw [hr] at this
    exact .inl (h.step this)
  · exact .inr (Prog.run_sunk p hp _ _ _ _ _ hi h hr)

/-- Without graceful EOF; or with it, but the input does not end there and the stream cannot get beyond its end. -/
def Mode (junk : List Byte) (s : Stream) : Prop := s.graceful = false ∨ (junk ≠ [] ∧ NoSeek s)

theorem Mode.frame {junk : List Byte} {s s' : Stream} (h : Mode junk s) (hf : Frame s s') : Mode junk s' :=
  h.imp (fun h => hf.graceful.trans h) (fun h => ⟨h.1, h.2.frame hf⟩)

/-- An element that was read was spelled there, except that the content of a blob may go beyond the end of the input. -/
theorem readElement_inv {s s' : Stream} {e : Element} (hb : Benign s.inner.sched) (he : s.eof = false) (hg : Mode s.rest s) (hw : s.inner.pos ≤ s.inner.data.length)
    (h : readElement s = .ok e s') : (∃ tok enc l, EncTok tok enc ∧ s.rest = enc ++ l) ∨ (Lost s' ∧ e ≠ .padding) := by
  unfold readElement at h
  rcases readByte_spec true s with ⟨h1, sc, h2, h3⟩ | ⟨h1, sc, h2, h3⟩
  · rw [h3] at h; cases h
  rcases h3 with ⟨b, l, h3, h4⟩ | ⟨h3, -, h4, -⟩ | ⟨h3, -, h4⟩ | ⟨h3, -⟩
  · rw [h4] at h
    dsimp only at h
    rw [parse_arith] at h
    have hb' : Benign sc := hb.suffix h2
    have hr1 : (advBy s 1 sc).rest = l := by rw [advBy_rest, h3]; rfl
    have hrl := rest_length s
    rw [h3] at hrl
    simp only [List.length_cons] at hrl
    have blob : ∀ (s1 s' : Stream) (n : Nat), s1.inner = (advBy s 1 sc).inner → s1.eof = false → s1.graceful = s.graceful → s1.useSeek = s.useSeek → nextBlob s1 = .ok n s' →
        (∃ g data l', n < 2 ^ 64 ∧ EncInt n g ∧ data.length = n ∧ l = g ++ data ++ l') ∨ Lost s' := by
      intro s1 s' n hi he hgr hus h
      have hr : s1.rest = l := by rw [← hr1]; unfold Stream.rest; rw [hi]
      obtain ⟨g, l', sc', g1, g2, g3, g4, g5⟩ := nextBlob_inv (by rw [hi]; exact hb') h
      rw [hr] at g4
      by_cases hn : n ≤ l'.length
      · exact .inl ⟨g, l'.take n, l'.drop n, g2, g3, by simp; omega, by rw [g4, List.append_assoc, List.take_append_drop]⟩
      · have := congrArg List.length g4
        simp only [List.length_append] at this
        have e1 : s1.inner.data = s.inner.data := by rw [hi]; rfl
        have e2 : s1.inner.pos = s.inner.pos + 1 := by rw [hi]; rfl
        have e3 : s1.inner.seekable = s.inner.seekable := by rw [hi]; rfl
        rcases hg with hg | ⟨-, hg⟩
        · refine .inr (.inl ⟨by rw [g5]; exact he, by rw [g5]; exact hgr.trans hg, ?_⟩)
          rw [g5]
          simp only [vpos, advBy_data, advBy_ipos, advBy_pos, if_true, e1, e2]
          omega
        · refine .inr (.inr ⟨by rw [g5]; exact he, by rw [g5], by rw [g5]; exact hg.imp (fun h => hus.trans h) (fun h => e3.trans h), ?_, ?_⟩)
          · rw [g5]; simp only [advBy_data, advBy_ipos, e1, e2]; omega
          · rw [g5]; simp only [advBy_data, advBy_ipos, advBy_pos, e1, e2]; omega
    have h64 : b.toNat < 256 := b.toNat_lt
    have hq : b.toNat / 64 = 0 ∨ b.toNat / 64 = 1 ∨ b.toNat / 64 = 2 ∨ b.toNat / 64 = 3 := by omega
    have byte : ∀ q : Nat, b.toNat % 64 = 0 → b.toNat / 64 = q → b = UInt8.ofNat (q * 64) := by
      intro q h0 hq
      apply UInt8.toNat.inj
      simp only [UInt8.toNat_ofNat']
      omega
    by_cases h0 : b.toNat % 64 = 0
    · rw [if_pos h0] at h
      rcases hq with hq | hq | hq | hq <;> rw [hq] at h
      · exact .inl ⟨.endStruct, [b], l, by rw [byte 0 h0 hq]; exact .endStruct, h3⟩
      · exact .inl ⟨.endDoc, [b], l, by rw [byte 1 h0 hq]; exact .endDoc, h3⟩
      · cases hn : nextBlob (advBy s 1 sc) with
        | err e s1 => rw [M.bind_err hn] at h; cases h
        | ok n s1 =>
          rw [M.bind_ok hn] at h
          cases h
          rcases blob _ _ _ rfl he rfl rfl hn with ⟨g, data, l', a1, a2, a3, a4⟩ | hd
          · exact .inl ⟨.exception data, b :: g ++ data, l', by rw [byte 2 h0 hq]; exact .exception (a3 ▸ a2) (a3 ▸ a1), by rw [h3, a4]; simp⟩
          · exact .inr ⟨hd, by simp⟩
      · exact .inl ⟨.padding, [b], l, by rw [byte 3 h0 hq]; exact .padding, h3⟩
    · rw [if_neg h0] at h
      dsimp only at h
      have htag : TagOk (UInt8.ofNat (b.toNat % 64)) ∧ (UInt8.ofNat (b.toNat % 64)).toNat = b.toNat % 64 := by
        unfold TagOk; simp only [UInt8.toNat_ofNat']; omega
      generalize hs1 : (if (advBy s 1 sc).depth = 0 then { advBy s 1 sc with depth := 1 } else advBy s 1 sc) = s1 at h
      have hi1 : s1.inner = (advBy s 1 sc).inner := by rw [← hs1]; split <;> rfl
      have he1 : s1.eof = false := by rw [← hs1]; split <;> exact he
      have hg1 : s1.graceful = s.graceful ∧ s1.useSeek = s.useSeek := by rw [← hs1]; split <;> exact ⟨rfl, rfl⟩
      have hrs : s1.rest = l := by rw [← hr1]; unfold Stream.rest; rw [hi1]
      have hbs : Benign s1.inner.sched := by rw [hi1]; exact hb'
      rcases hq with hq | hq | hq | hq <;> rw [hq] at h <;> simp only [tyOf, nextValue] at h
      · cases hn : decodeU64 (readByte false) s1 with
        | err e s2 => rw [M.bind_err (e := e) (s' := s2) (M.bind_err hn)] at h; cases h
        | ok n s2 =>
          obtain ⟨g, -, -, -, a1, a2⟩ := decodeU64_inv hbs hn
          rw [hrs] at a2
          exact .inl ⟨.enum _ n, b :: g, s2.rest, .enum htag.1 (by omega) a1, by rw [h3, a2]; simp⟩
      · cases hn : decodeU64 (readByte false) s1 with
        | err e s2 => rw [M.bind_err (e := e) (s' := s2) (M.bind_err hn)] at h; cases h
        | ok n s2 =>
          obtain ⟨g, -, -, -, a1, a2⟩ := decodeU64_inv hbs hn
          rw [hrs] at a2
          exact .inl ⟨.int _ n, b :: g, s2.rest, .int htag.1 (by omega) a1, by rw [h3, a2]; simp⟩
      · cases hn : nextBlob s1 with
        | err e s2 => rw [M.bind_err (e := e) (s' := s2) (M.bind_err hn)] at h; cases h
        | ok n s2 =>
          have e2 : s' = s2 ∧ e ≠ .padding := by
            rw [M.bind_ok (a := .blob n) (s' := s2) (by rw [M.bind_ok hn]; rfl)] at h
            cases h; exact ⟨rfl, by simp⟩
          obtain ⟨rfl, hne⟩ := e2
          rcases blob _ _ _ hi1 he1 hg1.1 hg1.2 hn with ⟨g, data, l', a1, a2, a3, a4⟩ | hd
          · exact .inl ⟨.blob _ data, b :: g ++ data, l', .blob htag.1 (by omega) (a3 ▸ a2) (a3 ▸ a1), by rw [h3, a4]; simp⟩
          · exact .inr ⟨hd, hne⟩
      · exact .inl ⟨.struct _, [b], l, .struct htag.1 (by omega), h3⟩
  · rcases hg with hg | ⟨hg, -⟩
    · rw [hg] at h4; cases h4
    · exact absurd h3 hg
  · rw [h4] at h; cases h
  · exact absurd hb h3

/-- The stream represents the abstract stream, up to the bytes `junk` behind the elements. -/
structure AbsJ (junk : List Byte) (s : Stream) (t : TS) : Prop where
  at_ : ∃ rest, At s ⟨t.pos, t.depth, t.eof, t.cur, rest ++ junk⟩ ∧ EncH t.toks rest ∧
    t.pos + (t.cur.getD []).length + (rest ++ junk).length < U64MAX
  mode : Mode junk s
  graceful' : t.graceful = false

theorem AbsJ.inv {junk : List Byte} {s : Stream} {t : TS} (h : AbsJ junk s t) : Inv s := by
  obtain ⟨_, h1, -⟩ := h.at_; exact h1.inv

/-- Success on the stream means the same success on the abstract stream, or that the stream is beyond its end. -/
def RJ {α : Type} (junk : List Byte) (r : Res Err Stream α) (r' : Res Err TS α) : Prop :=
  ∀ a s', r = .ok a s' → (∃ t', r' = .ok a t' ∧ AbsJ junk s' t') ∨ Lost s'

theorem RJ.err {α : Type} {junk : List Byte} {e : Err} {s : Stream} {r' : Res Err TS α} : RJ junk (.err e s : Res Err Stream α) r' := fun _ _ h => by cases h
theorem RJ.ok {α : Type} {junk : List Byte} {a : α} {s : Stream} {t : TS} (h : AbsJ junk s t) : RJ junk (.ok a s) (.ok a t) := fun _ _ h' => by cases h'; exact .inl ⟨t, rfl, h⟩
theorem RJ.lost {α : Type} {junk : List Byte} {a : α} {s : Stream} {r' : Res Err TS α} (h : Lost s) : RJ junk (.ok a s) r' := fun _ _ h' => by cases h'; exact .inr h

section
variable {junk : List Byte} (hj : Stuck junk)
include hj

omit hj in
theorem commit_j {s : Stream} {t : TS} (h : AbsJ junk s t) : ∃ s', commit s = .ok () s' ∧ AbsJ junk s' t.flush := by
  obtain ⟨rest, h1, h2, h3⟩ := h.at_
  have hC := commit_safe h.inv
  obtain ⟨s', h4, h5, -⟩ := commit_at h1
  rw [h4] at hC
  refine ⟨s', h4, ⟨⟨rest, h5, h2, ?_⟩, h.mode.frame hC.1.step.frame, h.graceful'⟩⟩
  simp [TS.flush] at h3 ⊢; omega

theorem readElement_j' {s s' : Stream} {t : TS} {e : Element} (h : AbsJ junk s t) (hc : t.cur = none) (he : t.eof = false) (hr : readElement s = .ok e s') :
    (∃ t', TS.readElement t = .ok e t' ∧ AbsJ junk s' t') ∨ (Lost s' ∧ e ≠ .padding) := by
  obtain ⟨rest, h1, h2, h3⟩ := h.at_
  have hcm := h1.none hc
  have hS := (readElement_safe h.inv hcm (h1.eof.trans he)).1
  have hb := h1.bytes
  simp only [View.curBytes, hc, Option.getD_none, List.nil_append] at hb
  simp only [hc, Option.getD_none, List.length_nil, Nat.add_zero] at h3
  unfold TS.readElement
  cases hts : t.toks with
  | nil =>
    rw [hts] at h2
    cases h2
    rcases readElement_inv h1.ben (h1.eof.trans he) (by rw [hb, List.nil_append]; exact h.mode) h1.within hr with ⟨tok, enc, l, a1, a2⟩ | hd
    · rw [hb, List.nil_append] at a2
      exact absurd a2 (hj _ _ _ a1)
    · exact .inr hd
  | cons x ts =>
    rw [hts] at h2
    cases h2 with
    | @cons hh k _ enc bs' ht hl h2 =>
      rw [List.append_assoc] at h1
      obtain ⟨s2, h4, h5⟩ := readElement_at (l := bs' ++ junk) h1 hc he ht rfl
      rw [h4] at hS hr
      cases hr
      refine .inl ⟨_, rfl, ⟨bs', ?_, h2, ?_⟩, h.mode.frame hS.step.frame, h.graceful'⟩
      · have : (⟨t.pos, t.depth, t.eof, t.cur, enc ++ (bs' ++ junk)⟩ : View).after k enc.length (bs' ++ junk) =
          ⟨t.pos + hh, k.depthAfter t.depth, decide (k = .endDoc), contentOf k, bs' ++ junk⟩ := by
          simp [View.after]; omega
        rw [this] at h5; exact h5
      · simp only; simp at h3 ⊢; omega

theorem readElement_j {s : Stream} {t : TS} (h : AbsJ junk s t) (hc : t.cur = none) (he : t.eof = false) :
    RJ junk (readElement s) (TS.readElement t) := fun _ _ hr => (readElement_j' hj h hc he hr).imp_right (·.1)

theorem nextElement_j {s : Stream} {t : TS} (h : AbsJ junk s t) : RJ junk (nextElement s) (TS.nextElement t) := by
  obtain ⟨rest, h1, h2, h3⟩ := h.at_
  unfold nextElement nextElementImpl TS.nextElement
  by_cases he : t.eof = true
  · rw [if_pos (by rw [h1.eof]; exact he), if_pos he]; exact .ok h
  · rw [if_neg (by rw [h1.eof]; exact he), if_neg he]
    obtain ⟨s', h4, h5⟩ := commit_j h
    rw [M.bind_ok h4]
    exact readElement_j hj h5 rfl (by simpa [TS.flush] using he)

theorem skipPadLoop_j : ∀ (fuel : Nat) (s : Stream) (t : TS), AbsJ junk s t → t.cur = none → t.eof = false →
    RJ junk (skipPadLoop fuel s) (TS.readElement t.unpad) := by
  intro fuel
  induction fuel with
  | zero => intro s t _ _ _ _ _ h; cases h
  | succ fuel ih =>
    intro s t h hc he
    rw [skipPadLoop, M.bind_apply]
    cases hr : readElement s with
    | err e s' => exact .err
    | ok e s' =>
      dsimp only
      rw [M.ite_apply]
      rcases readElement_j' hj h hc he hr with ⟨t', g1, g2⟩ | ⟨hd, hne⟩
      · unfold TS.readElement at g1
        cases hts : t.toks with
        | nil => rw [hts] at g1; dsimp only at g1; rw [h.graceful', if_neg (by simp)] at g1; cases g1
        | cons a ts =>
          obtain ⟨hh, k⟩ := a
          rw [hts] at g1
          simp only [Res.ok.injEq] at g1
          obtain ⟨g1, g3⟩ := g1
          by_cases hk : k = .padding
          · subst hk
            rw [if_pos (by rw [← g1]; rfl)]
            subst g3
            have := ih s' _ g2 rfl rfl
            have e : (TS.unpad ⟨t.pos + hh, Tok.padding.depthAfter t.depth,
                decide (Tok.padding = .endDoc), t.graceful, contentOf .padding, ts⟩) = t.unpad := by
              cases t; simp only at hts hc he; subst hts hc he
              simp [TS.unpad, TS.dropPads, Tok.depthAfter, contentOf]
            rw [e] at this; exact this
          · have hne : elemOf t.pos t.depth k ≠ .padding := by cases k <;> simp [elemOf] at hk ⊢
            rw [if_neg (by rw [← g1]; exact hne)]
            have hu : t.unpad = t := by
              cases t; simp only at hts; subst hts; simp [TS.unpad, TS.dropPads, hk]
            rw [hu]; unfold TS.readElement; rw [hts]
            intro a s2 h2
            cases h2
            exact .inl ⟨_, by rw [← g1, ← g3], g2⟩
      · rw [if_neg hne]; exact .lost hd

theorem nextField_j {s : Stream} {t : TS} (h : AbsJ junk s t) : RJ junk (nextField s) (TS.nextField t) := by
  obtain ⟨rest, h1, h2, h3⟩ := h.at_
  unfold nextField TS.nextField nextElementImpl
  by_cases he : t.eof = true
  · rw [M.bind_apply, if_pos (by rw [h1.eof]; exact he), if_pos he]; exact .ok h
  · rw [M.bind_apply, if_neg (by rw [h1.eof]; exact he), if_neg he]
    obtain ⟨s', h4, h5⟩ := commit_j h
    rw [M.bind_ok h4]
    have hP := skipPadLoop_j hj (s'.inner.data.length - s'.inner.pos + 2) s' _ h5 rfl (by simpa [TS.flush] using he)
    rw [if_pos rfl, M.bind_ok (M.get_apply s')]
    cases hr : skipPadLoop (s'.inner.data.length - s'.inner.pos + 2) s' with
    | err e s2 => exact .err
    | ok e s2 =>
      dsimp only
      rcases hP e s2 hr with ⟨t2, g1, g2⟩ | hd
      · rw [g1]
        cases e with
        | field f => exact .ok g2
        | endOfStruct => exact .ok g2
        | endOfDoc => exact .ok g2
        | padding => intro a s3 h; cases h
        | exception len =>
          intro a s3 h
          cases hm : readOrTrunc 256 s2 with
          | ok m s4 => dsimp only at h; rw [M.bind_ok hm] at h; cases h
          | err m s4 => dsimp only at h; rw [M.bind_err hm] at h; cases h
      · intro a s3 h3
        cases e with
        | field f => cases h3; exact .inr hd
        | endOfStruct => cases h3; exact .inr hd
        | endOfDoc => cases h3; exact .inr hd
        | padding => cases h3
        | exception len =>
          cases hm : readOrTrunc 256 s2 with
          | ok m s4 => dsimp only at h3; rw [M.bind_ok hm] at h3; cases h3
          | err m s4 => dsimp only at h3; rw [M.bind_err hm] at h3; cases h3

omit hj in
theorem skipUpLoop_doomed (d : Nat) : ∀ (fuel : Nat) (s s' : Stream), Inv s → Doomed s → skipUpLoop d fuel s = .ok () s' → Doomed s' := by
  intro fuel
  induction fuel with
  | zero => intro s s' _ _ h; cases h
  | succ fuel ih =>
    intro s s' hi hd h
    rw [skipUpLoop] at h
    split at h
    · have hS := (nextElement_safe hi).1.step
      cases hn : nextElement s with
      | err e s1 => rw [M.bind_err hn] at h; cases h
      | ok e s1 =>
        rw [M.bind_ok hn] at h
        rw [hn] at hS
        exact ih _ _ hS.inv (hd.step hS) h
    · cases h; exact hd

omit hj in
theorem skipUpLoop_sunk (d : Nat) (fuel : Nat) (s s' : Stream) (hi : Inv s) (hd : Sunk s) (h : skipUpLoop d fuel s = .ok () s') : Sunk s' := by
  cases fuel with
  | zero => cases h
  | succ fuel =>
    rw [skipUpLoop] at h
    split at h
    · obtain ⟨e, s1, he⟩ := hd.nextElementImpl_err hi false
      rw [M.bind_err (show nextElement s = _ from he)] at h; cases h
    · cases h; exact hd

theorem skipUpLoop_j (d : Nat) : ∀ (fuel fuel' : Nat) (s : Stream) (t : TS), AbsJ junk s t → t.toks.length + 1 < fuel' →
    RJ junk (skipUpLoop d fuel s) (TS.skipUpLoop d fuel' t) := by
  intro fuel
  induction fuel with
  | zero => intro _ s t _ _ _ _ h; cases h
  | succ fuel ih =>
    intro fuel' s t h hf'
    cases fuel' with
    | zero => omega
    | succ fuel' =>
      obtain ⟨rest, h1, h2, h3⟩ := h.at_
      unfold skipUpLoop TS.skipUpLoop
      have hd : s.depth = t.depth := h1.depth
      rw [hd]
      by_cases hg : t.depth > d
      · rw [if_pos hg, if_pos hg]
        have hN := nextElement_j hj h
        have heof : t.eof = false := by
          cases he : t.eof with
          | false => rfl
          | true => have := h.inv.eofDepth (h1.eof.trans he); omega
        rw [M.bind_apply, M.bind_apply]
        cases hn : nextElement s with
        | err e s' => exact .err
        | ok e s' =>
          dsimp only
          rcases hN e s' hn with ⟨t', hn', hN⟩ | hdm
          · rw [hn']
            dsimp only
            rcases TS.nextElement_toks hn' with hl | hl | hl
            · exact ih fuel' s' t' hN (by omega)
            · cases fuel with
              | zero => intro _ _ h; cases h
              | succ fuel =>
                cases fuel' with
                | zero => omega
                | succ fuel' =>
                  obtain ⟨rest', g1, -⟩ := hN.at_
                  have hd' : s'.depth = t'.depth := g1.depth
                  unfold skipUpLoop TS.skipUpLoop
                  rw [if_neg (by omega), if_neg (by omega)]
                  exact .ok hN
            · subst hl
              exfalso
              unfold TS.nextElement at hn'
              rw [heof, if_neg (by simp)] at hn'
              unfold TS.readElement at hn'
              split at hn'
              · split at hn'
                · simp only [Res.ok.injEq] at hn'
                  have := hn'.2
                  have := congrArg TS.eof this
                  simp [heof] at this
                · cases hn'
              · rename_i hh k ts htk
                simp only [Res.ok.injEq] at hn'
                have := congrArg (fun t => t.toks.length) hn'.2
                have e2 : t'.toks = (hh, k) :: ts := htk
                simp [e2] at this
          · intro a s2 h2
            have hS := (nextElement_safe h.inv).1.step
            rw [hn] at hS
            exact .inr (hdm.imp (fun hdm => skipUpLoop_doomed d _ _ _ hS.inv hdm h2) (fun hdm => skipUpLoop_sunk d _ _ _ hS.inv hdm h2))
      · rw [if_neg hg, if_neg hg]; exact .ok h

omit hj in
theorem AbsJ.liveCur {s : Stream} {t : TS} (h : AbsJ junk s t) : s.live = t.cur.isSome := by
  obtain ⟨rest, h1, -⟩ := h.at_
  cases hc : t.cur with
  | none => exact h.inv.notLive (h1.none hc)
  | some c => exact (h1.some c hc).2.1

omit hj in
theorem AbsJ.remaining {s : Stream} {t : TS} {c : List Byte} (h : AbsJ junk s t) (hc : t.cur = some c) :
    blobRemaining s = c.length := by
  obtain ⟨rest, h1, -⟩ := h.at_
  have := (h1.some c hc).2.2; unfold blobRemaining; omega

theorem exec_j {β : Type} (o : Op β) (ho : o.calm) {s : Stream} {t : TS} (h : AbsJ junk s t) : RJ junk (o.exec s) (TS.exec o t) := by
  obtain ⟨rest, h1, h2, h3⟩ := h.at_
  have hlive : ∀ {α : Type} (m : M Err Stream α) (f : List Byte → M Err TS α),
      (∀ c, t.cur = some c → RJ junk (m s) (f c t)) → RJ junk (onLiveBlob m s) (TS.onBlob f t) := by
    intro α m f hm
    unfold onLiveBlob TS.onBlob
    rw [h.liveCur]
    cases hc : t.cur with
    | none => exact .err
    | some c => exact hm c hc
  cases o with
  | nextField => exact nextField_j hj h
  | skipUp d => exact skipUpLoop_j hj d _ _ s t h (by omega)
  | pos =>
    have hp : s.pos = t.pos := h1.pos
    show RJ junk (.ok s.pos s) (.ok t.pos t)
    rw [hp]; exact .ok h
  | readFully max =>
    show RJ junk (onLiveBlob (readFully max) s) (TS.onBlob (fun c t =>
      if c.length > max then .err (.largeBlob max c.length) t else TS.take c.length c t) t)
    refine hlive _ _ fun c hc => ?_
    unfold readFully
    rw [h.remaining hc]
    by_cases hm : c.length > max
    · rw [if_pos hm, if_pos hm]; exact .err
    · rw [if_neg hm, if_neg hm]
      obtain ⟨s', h4, h5⟩ := drain_at h1 (c := c) hc c.length (Nat.le_refl _)
      have hS := drain_blob_safe c.length h.inv (h1.some c hc).1 (by
        have := (h1.some c hc).2.2; unfold blobRemaining; omega)
      rw [h4] at hS ⊢
      refine RJ.ok (t := { t with pos := t.pos + min c.length c.length, cur := some (c.drop c.length) }) ⟨⟨rest, ?_, h2, ?_⟩, h.mode.frame hS.step.frame, h.graceful'⟩
      · rw [Nat.min_self]; exact h5
      · simp [hc] at h3 ⊢; omega
  | slice =>
    refine hlive _ _ fun c hc => ?_
    rw [slice_at h1 hc]; exact .ok h
  | remaining =>
    refine hlive _ _ fun c hc => ?_
    show RJ junk (.ok (blobRemaining s) s) (.ok c.length t)
    rw [h.remaining hc]; exact .ok h
  | nextElement | commit | clearEof | eof | structDepth | readOrTrunc _ | read _ => exact ho.elim

/-- The same for clients. -/
def RJP {ε U α : Type} (junk : List Byte) (r : Res (Stop ε) (PSt U) α) (r' : Res (Stop ε) (TS × U) α) : Prop :=
  ∀ a s' u', r = .ok a (s', u') → (∃ t', r' = .ok a (t', u') ∧ AbsJ junk s' t') ∨ Lost s'

omit hj in
theorem runLoop_doomed {ε U β α : Type} (body : β → Element → Prog ε U (β ⊕ α)) (onErr : Err → Prog ε U α) (onEnd : β → Prog ε U α) :
    ∀ (fuel : Nat) (b : β) (st st' : PSt U) (a : α), Inv st.1 → Doomed st.1 →
      runLoop true (fun b e => (body b e).run) (fun e => (onErr e).run) (fun b => (onEnd b).run) fuel b st = .ok a st' → Doomed st'.1 := by
  intro fuel
  induction fuel with
  | zero => intro b st st' a _ _ h; cases h
  | succ fuel ih =>
    intro b st st' a hi hd h
    rw [runLoop] at h
    have hS := (pull_safe true hi).1.step
    cases hp : pull true st.1 with
    | err e s1 =>
      rw [hp] at h hS
      dsimp only at h
      split at h
      · cases h
      · have := ((onErr e).run_safe (s1, st.2) hS.inv).step
        rw [h] at this
        exact (hd.step hS).step this
    | ok o s1 =>
      rw [hp] at h hS
      cases o with
      | none =>
        have := ((onEnd b).run_safe (s1, st.2) hS.inv).step
        dsimp only at h
        rw [h] at this
        exact (hd.step hS).step this
      | some el =>
        dsimp only at h
        have hB := ((body b el).run_safe (s1, st.2) hS.inv).step
        cases hb : (body b el).run (s1, st.2) with
        | err e st1 => rw [hb] at h; cases h
        | ok x st1 =>
          rw [hb] at h hB
          cases x with
          | inr a => cases h; exact (hd.step hS).step hB
          | inl b' => exact ih _ _ _ _ hB.inv ((hd.step hS).step hB) h

omit hj in
theorem runLoop_lost {ε U β α : Type} {D : Err → ε → Prop} (body : β → Element → Prog ε U (β ⊕ α)) (onErr : Err → Prog ε U α) (onEnd : β → Prog ε U α) (hE : ∀ e, ∃ d, onErr e = .fail d ∧ D e d)
    (fuel : Nat) (b : β) (st st' : PSt U) (a : α) (hi : Inv st.1) (hl : Lost st.1)
    (h : runLoop true (fun b e => (body b e).run) (fun e => (onErr e).run) (fun b => (onEnd b).run) fuel b st = .ok a st') : Lost st'.1 := by
  rcases hl with hd | hs
  · exact .inl (runLoop_doomed body onErr onEnd fuel b st st' a hi hd h)
  · exfalso
    cases fuel with
    | zero => cases h
    | succ fuel =>
      rw [runLoop] at h
      obtain ⟨e, s1, he⟩ := hs.nextField_err hi
      have : pull true st.1 = .err e s1 := by unfold pull; simp only [if_true, he]
      rw [this] at h
      obtain ⟨d, hd, -⟩ := hE e
      dsimp only at h
      rw [hd] at h
      split at h <;> cases h

omit hj in
theorem pull_true_ok {s s' : Stream} {o : Option Element} (h : pull true s = .ok o s') : ∃ f, nextField s = .ok f s' ∧ o = f.map .field := by
  unfold pull at h
  simp only [if_true] at h
  cases hn : nextField s with
  | err e s1 => rw [hn] at h; cases h
  | ok f s1 => rw [hn] at h; cases f <;> cases h <;> exact ⟨_, rfl, rfl⟩

omit hj in
theorem TS.pull_true {t t' : TS} {f : Option Field} (h : TS.nextField t = .ok f t') : TS.pull true t = .ok (f.map .field) t' := by
  unfold TS.pull
  simp only [if_true, h]
  cases f <;> rfl

omit hj in
theorem TS.nextField_depth {t t' : TS} {f : Field} (h : TS.nextField t = .ok (some f) t') : 1 ≤ f.depth := by
  unfold TS.nextField at h
  split at h
  · cases h
  · split at h
    · cases h
    · rename_i f' t1 hr
      cases h
      unfold TS.readElement at hr
      split at hr
      · split at hr <;> cases hr
      · rename_i hh k ts htk
        simp only [Res.ok.injEq] at hr
        have := hr.1
        cases k <;> simp only [elemOf, Element.field.injEq] at this <;> first | (rw [← this]; simp only; omega) | cases this
    · split at h <;> cases h
    · cases h

omit hj in
theorem readElement_depth {s s' : Stream} {f : Field} (h : readElement s = .ok (.field f) s') : 1 ≤ f.depth := by
  unfold readElement at h
  dsimp only at h
  split at h
  · cases h
  · rename_i s1 _
    split at h
    · cases h
    · rename_i ty tag _
      rw [M.bind_apply] at h
      split at h
      · simp only [M.pure_apply, Res.ok.injEq, Element.field.injEq] at h
        rw [← h.1]
        dsimp only
        split <;> first | exact Nat.le_refl 1 | omega
      · cases h
    · cases h
    · cases h
    · rw [M.bind_apply] at h
      split at h <;> cases h
    · cases h

omit hj in
theorem nextField_depth {s s' : Stream} {f : Field} (h : nextField s = .ok (some f) s') : 1 ≤ f.depth := by
  have loop : ∀ (fuel : Nat) (s : Stream), skipPadLoop fuel s = .ok (.field f) s' → 1 ≤ f.depth := by
    intro fuel
    induction fuel with
    | zero => intro s h; cases h
    | succ fuel ih =>
      intro s h
      rw [skipPadLoop, M.bind_apply] at h
      split at h
      · rename_i e s1 he
        rw [M.ite_apply] at h
        split at h
        · exact ih _ h
        · cases h; exact readElement_depth he
      · cases h
  unfold nextField at h
  rw [M.bind_apply] at h
  split at h
  · rename_i e s1 he
    cases e with
    | padding => cases h
    | endOfStruct => cases h
    | endOfDoc => cases h
    | exception n => dsimp only at h; rw [M.bind_apply] at h; split at h <;> cases h
    | field f' =>
      cases h
      unfold nextElementImpl at he
      split at he
      · cases he
      · rw [M.bind_apply] at he
        split at he
        · rw [if_pos rfl, M.bind_ok (M.get_apply _)] at he
          exact loop _ _ he
        · cases he
  · cases h

theorem runLoop_j {ε U β α : Type} {D : Err → ε → Prop} (body : β → Element → Prog ε U (β ⊕ α)) (onErr : Err → Prog ε U α) (onEnd : β → Prog ε U α)
    (hb : ∀ b (f : Field), 1 ≤ f.depth → ∀ s t u, AbsJ junk s t → RJP junk ((body b (.field f)).run (s, u)) ((body b (.field f)).abs (t, u)))
    (hbS : ∀ b (f : Field), 1 ≤ f.depth → (body b (.field f)).Strict D) (hNS : ∀ b, (onEnd b).Strict D)
    (hE : ∀ e, ∃ d, onErr e = .fail d ∧ D e d)
    (hN : ∀ b s t u, AbsJ junk s t → RJP junk ((onEnd b).run (s, u)) ((onEnd b).abs (t, u))) :
    ∀ (fuel fuel' : Nat) (b : β) (s : Stream) (t : TS) (u : U), AbsJ junk s t → t.toks.length < fuel' →
    RJP junk (runLoop true (fun b e => (body b e).run) (fun e => (onErr e).run) (fun b => (onEnd b).run) fuel b (s, u))
      (TS.runLoop true (fun b e => (body b e).abs) (fun e => (onErr e).abs) (fun b => (onEnd b).abs) fuel' b (t, u)) := by
  intro fuel
  induction fuel with
  | zero => intro _ _ _ _ _ _ _ _ _ _ h; cases h
  | succ fuel ih =>
    intro fuel' b s t u h hf' a s' u' hr
    cases fuel' with
    | zero => omega
    | succ fuel' =>
      rw [runLoop] at hr
      rw [TS.runLoop]
      have hS := (pull_safe true h.inv).1.step
      dsimp only at hr ⊢
      cases hp : pull true s with
      | err e s1 =>
        rw [hp] at hr
        obtain ⟨d, hd, -⟩ := hE e
        dsimp only at hr
        rw [hd] at hr
        split at hr <;> cases hr
      | ok o s1 =>
        rw [hp] at hr hS
        obtain ⟨f, hf, rfl⟩ := pull_true_ok hp
        rcases nextField_j hj h f s1 hf with ⟨t1, g1, g2⟩ | hd
        · have hpt := TS.pull_true g1
          rw [hpt]
          cases f with
          | none => exact hN b s1 t1 u g2 a s' u' hr
          | some f =>
            dsimp only [Option.map_some] at hr ⊢
            have hlt := TS.pull_some hpt
            have hdep : 1 ≤ f.depth := TS.nextField_depth g1
            cases hb1 : (body b (.field f)).run (s1, u) with
            | err e st => rw [hb1] at hr; cases hr
            | ok x st =>
              rw [hb1] at hr
              obtain ⟨s2, u2⟩ := st
              have hB := ((body b (.field f)).run_safe (s1, u) hS.inv).step
              rw [hb1] at hB
              rcases hb b f hdep s1 t1 u g2 x s2 u2 hb1 with ⟨t2, k1, k2⟩ | hd
              · rw [k1]
                cases x with
                | inr a => cases hr; exact .inl ⟨t2, rfl, k2⟩
                | inl b' =>
                  have hm := (body b (.field f)).abs_mono (t1, u)
                  rw [k1] at hm
                  simp only [Res.state_ok] at hm
                  exact ih fuel' b' s2 t2 u2 k2 (by omega) a s' u' hr
              · cases x with
                | inr a => cases hr; exact .inr hd
                | inl b' => exact .inr (runLoop_lost body onErr onEnd hE _ _ _ _ _ hB.inv hd hr)
        · cases f with
          | none =>
            exact .inr (hd.run (hNS b) hS.inv (show (onEnd b).run (s1, u) = .ok a (s', u') from hr))
          | some f =>
            dsimp only [Option.map_some] at hr
            have hdep : 1 ≤ f.depth := nextField_depth hf
            have hB := ((body b (.field f)).run_safe (s1, u) hS.inv).step
            cases hb1 : (body b (.field f)).run (s1, u) with
            | err e st => rw [hb1] at hr; cases hr
            | ok x st =>
              rw [hb1] at hr hB
              cases x with
              | inr a => cases hr; exact .inr (hd.run (hbS b f hdep) hS.inv hb1)
              | inl b' => exact .inr (runLoop_lost body onErr onEnd hE _ _ _ _ _ hB.inv (hd.run (hbS b f hdep) hS.inv hb1) hr)

theorem Prog.run_j {ε U : Type} {D : Err → ε → Prop} : ∀ {α : Type} (p : Prog ε U α), p.Strict D →
    ∀ (s : Stream) (t : TS) (u : U), AbsJ junk s t → RJP junk (p.run (s, u)) (p.abs (t, u)) := by
  intro α p
  induction p with
  | ret a => intro _ s t u h a s' u' hr; cases hr; exact .inl ⟨t, rfl, h⟩
  | fail e => intro _ s t u h a s' u' hr; cases hr
  | op o => intro ho; exact ho.elim
  | call o f =>
    intro ho s t u h a s' u' hr
    have hx := exec_j hj o ho.1 h
    simp only [Prog.run] at hr
    simp only [Prog.abs]
    cases he : o.exec s with
    | err e s1 => rw [he] at hr; dsimp only at hr; split at hr <;> cases hr
    | ok b s1 =>
      rw [he] at hr
      cases hr
      rcases hx _ _ he with ⟨t', h1, h2⟩ | hd
      · rw [h1]; exact .inl ⟨t', rfl, h2⟩
      · exact .inr hd
  | getU => intro _ s t u h a s' u' hr; cases hr; exact .inl ⟨t, rfl, h⟩
  | setU u => intro _ s t u h a s' u' hr; cases hr; exact .inl ⟨t, rfl, h⟩
  | bind p f ihp ihf =>
    intro hp s t u h a s' u' hr
    simp only [Prog.run] at hr
    simp only [Prog.abs]
    have hS := (p.run_safe (s, u) h.inv).step
    cases h1 : p.run (s, u) with
    | err e st => rw [h1] at hr; cases hr
    | ok b st =>
      rw [h1] at hr hS
      obtain ⟨s1, u1⟩ := st
      dsimp only at hr
      rcases hp with ⟨hp, hf⟩ | ⟨e, he⟩
      · rcases ihp hp s t u h b s1 u1 h1 with ⟨t1, k1, k2⟩ | hd
        · rw [k1]
          exact ihf b (hf b) s1 t1 u1 k2 a s' u' hr
        · exact .inr (hd.run (hf b) hS.inv hr)
      · rw [he] at hr; cases hr
  | attempt p ih => intro hp; exact hp.elim
  | loop fields init body onErr onEnd ih1 ih2 ih3 =>
    intro hp s t u h
    obtain ⟨rfl, h1, h2, h3⟩ := hp
    exact runLoop_j hj body onErr onEnd (fun b f hf => ih1 b (.field f) (h1 b f hf)) h1 h3 h2 (fun b => ih3 b (h3 b)) _ _ _ s t u h (by show t.toks.length < t.toks.length + 2; omega)

end

end Fourleaf
