import Verif.PropsCopy
import Verif.PropsReads
import Verif.PropsCompact

/-! # C81: forwarding a message -/

namespace Fourleaf.Props
open Fourleaf Spec

/-- A client that forwards one message from `src` to `dst` without knowing its type: it passes each element read with `next_element` to `write_element`, until it has read the end of a
struct and `struct_depth()` is 0, or the end of the document. (At most `n` elements; a message has at most as many as bytes.) -/
def forward : Nat → Stream → Stream → Res Err (Stream × Stream) Unit
  | 0, src, dst => .err (.panic "more elements than allowed") (src, dst)
  | n + 1, src, dst =>
    match nextElement src with
    | .err e src' => .err e (src', dst)
    | .ok el src' =>
      match writeElement el src' dst with
      | .err e st => .err e st
      | .ok _ (src'', dst') =>
        if el = .endOfDoc ∨ (el = .endOfStruct ∧ src''.depth = 0) then .ok () (src'', dst')
        else forward n src'' dst'

/-- The elements end where the client stops. -/
def stopsAt : Nat → List Tok → Prop
  | _, [] => False
  | d, t :: ts => t ≠ .endDoc ∧ if t = .endStruct ∧ t.depthAfter d = 0 then ts = [] else stopsAt (t.depthAfter d) ts

theorem stopsAt_inner {l : Fields} {ts : List Tok} (h : BodyOf l ts) : ∀ (d : Nat) (rest : List Tok), 2 ≤ d → stopsAt (d - 1) rest → stopsAt d (ts ++ rest) := by
  induction h with
  | nil =>
    intro d rest hd h
    refine ⟨nofun, ?_⟩
    have : ¬ (Tok.endStruct = .endStruct ∧ Tok.depthAfter d .endStruct = 0) := by simp only [Tok.depthAfter, true_and]; omega
    rw [if_neg this]
    exact h
  | pad _ ih =>
    intro d rest hd h
    refine ⟨nofun, ?_⟩
    rw [if_neg (by simp)]
    exact ih d rest hd h
  | int _ ih =>
    intro d rest hd h
    refine ⟨nofun, ?_⟩
    rw [if_neg (by simp)]
    simp only [Tok.depthAfter, Nat.max_eq_left (show 1 ≤ d by omega)]
    exact ih d rest hd h
  | blob _ ih =>
    intro d rest hd h
    refine ⟨nofun, ?_⟩
    rw [if_neg (by simp)]
    simp only [Tok.depthAfter, Nat.max_eq_left (show 1 ≤ d by omega)]
    exact ih d rest hd h
  | struct _ _ ih1 ih2 =>
    intro d rest hd h
    refine ⟨nofun, ?_⟩
    rw [if_neg (by simp)]
    simp only [Tok.depthAfter, Nat.max_eq_left (show 1 ≤ d by omega)]
    show stopsAt (d + 1) ((_ ++ _) ++ rest)
    rw [List.append_assoc]
    exact ih1 (d + 1) _ (by omega) (ih2 d rest hd h)
  | enum _ _ ih1 ih2 =>
    intro d rest hd h
    refine ⟨nofun, ?_⟩
    rw [if_neg (by simp)]
    simp only [Tok.depthAfter, Nat.max_eq_left (show 1 ≤ d by omega)]
    show stopsAt (d + 1) ((_ ++ _) ++ rest)
    rw [List.append_assoc]
    exact ih1 (d + 1) _ (by omega) (ih2 d rest hd h)

theorem stopsAt_top {l : Fields} {ts : List Tok} (h : BodyOf l ts) : ∀ d : Nat, d ≤ 1 → stopsAt d ts := by
  induction h with
  | nil =>
    intro d hd
    refine ⟨nofun, ?_⟩
    rw [if_pos ⟨rfl, by simp only [Tok.depthAfter]; omega⟩]
  | pad _ ih =>
    intro d hd
    refine ⟨nofun, ?_⟩
    rw [if_neg (by simp)]
    exact ih d hd
  | int _ ih | blob _ ih =>
    intro d hd
    refine ⟨nofun, ?_⟩
    rw [if_neg (by simp)]
    simp only [Tok.depthAfter, Nat.max_eq_right hd]
    exact ih 1 (Nat.le_refl 1)
  | struct h1 _ _ ih2 | enum h1 _ _ ih2 =>
    intro d hd
    refine ⟨nofun, ?_⟩
    rw [if_neg (by simp)]
    simp only [Tok.depthAfter, Nat.max_eq_right hd]
    exact stopsAt_inner h1 2 _ (Nat.le_refl 2) (ih2 1 (Nat.le_refl 1))

/-- One element. -/
theorem copy_step {t : Tok} {b bs l : List Byte} (ht : EncTok t b) {src dst : Stream} {p d : Nat} (h : Ready (onSched [] src) p d false (b ++ (bs ++ l)))
    (hd : WReady dst) {el : Element} {src1 : Stream} (hr : nextElement src = .ok el src1) :
    el = elemOf p d t ∧ ∀ u src' dst', writeElement el src1 dst = .ok u (src', dst') →
      Ready (onSched [] src') (p + b.length) (t.depthAfter d) (decide (t = .endDoc)) (bs ++ l) ∧ WReady dst' := by
  obtain ⟨s1, h1, h2, h3⟩ := h.nextElement ht
  have hinv : Inv src := by obtain ⟨v, hA, -⟩ := h; have := hA.inv; exact ⟨this.pos_le, this.pend, this.eofCommit, this.eofDepth, this.liveOk⟩
  have hL := nextElementImpl_lead false (onSched_lead (s := src) benign_nil) hinv
  obtain ⟨t', h4, h5⟩ := hL.ok el src1 hr
  have h4 : nextElement (onSched [] src) = .ok el t' := h4
  rw [h1] at h4
  injection h4 with h6 h7
  subst h6 h7
  refine ⟨rfl, fun u src' dst' hw => ?_⟩
  have hs1 : s1 = onSched [] src1 := by
    have := h5.eq
    have hn : s1.inner.sched = [] := by
      have := (nextElementImpl_safe false (onSched_lead (s := src) benign_nil |>.inv hinv)).1.step.frame.sched
      rw [show nextElementImpl false (onSched [] src) = .ok (elemOf p d t) s1 from h1] at this
      exact List.suffix_nil.1 this
    rw [hn] at this; exact this
  subst hs1
  have hW := writeElement_out (p := p) (d := d) h2 rfl (encTok_valid ht) hd
  have hcl := content_le ht
  rw [hw] at hW
  obtain ⟨g1, g2, g3, g4⟩ := hW
  simp only at g1 g2 g3 g4
  refine ⟨⟨_, g1, rfl, ?_, rfl, rfl⟩, g4⟩
  cases hct : contentOf t with
  | none => simp [View.flush, View.curBytes]
  | some c => rw [hct] at hcl; simp [View.flush, View.curBytes] at hcl ⊢; omega

theorem elemOf_endOfStruct (p d : Nat) (t : Tok) : elemOf p d t = .endOfStruct ↔ t = .endStruct := by
  cases t <;> simp [elemOf]

/-- The client copies exactly the elements of the message, whatever happens. -/
theorem forward_eq : ∀ (ts : List Tok) (bs : List Byte), EncToks ts bs → ∀ (n : Nat) (src dst : Stream) (p d : Nat) (l : List Byte),
    Ready (onSched [] src) p d false (bs ++ l) → WReady dst → stopsAt d ts → ts.length ≤ n → forward n src dst = copyElements ts.length src dst := by
  intro ts bs henc
  induction henc with
  | nil => intro n src dst p d l _ _ hc; exact hc.elim
  | @cons t ts b bs ht hts ih =>
    intro n src dst p d l h hd hc hn
    obtain ⟨n, rfl⟩ : ∃ n', n = n' + 1 := ⟨n - 1, by simp at hn; omega⟩
    simp only [List.length_cons, copyElements, forward]
    cases hr : nextElement src with
    | err e src' => rfl
    | ok el src1 =>
      rw [List.append_assoc] at h
      obtain ⟨rfl, hw⟩ := copy_step ht h hd hr
      simp only
      cases hr2 : writeElement (elemOf p d t) src1 dst with
      | err e st => rfl
      | ok u st =>
        obtain ⟨src', dst'⟩ := st
        obtain ⟨h1, h2⟩ := hw u src' dst' hr2
        obtain ⟨c1, c2⟩ := hc
        have hne : elemOf p d t ≠ .endOfDoc := fun h => c1 ((elemOf_endOfDoc p d t).1 h)
        have hdep : src'.depth = t.depthAfter d := h1.depth
        simp only [if_neg hne]
        by_cases hend : t = .endStruct ∧ t.depthAfter d = 0
        · rw [if_pos hend] at c2
          subst c2
          rw [if_pos (.inr ⟨(elemOf_endOfStruct p d t).2 hend.1, by rw [hdep]; exact hend.2⟩)]
          rfl
        · rw [if_neg hend] at c2
          rw [if_neg (by
            rintro (h | ⟨h, h'⟩)
            · exact hne h
            · exact hend ⟨(elemOf_endOfStruct p d t).1 h, by rw [← hdep]; exact h'⟩)]
          simp only [decide_eq_false c1] at h1
          exact ih n src' dst' _ _ l h1 h2 c2 (by simp at hn; omega)

theorem encToks_length {ts : List Tok} {b : List Byte} (h : EncToks ts b) : ts.length ≤ b.length := by
  induction h with
  | nil => exact Nat.zero_le _
  | cons h _ ih =>
    have := h.ne_nil
    simp only [List.length_cons, List.length_append]; omega

/-- **C81** A client that forwards a message, element by element, without knowing its type, writes a message with the same fields, at most as long, and then the source stands right behind
the message. Every reader of whatever type, with whatever configuration, reads the same value from the copy as from the original, or rejects both. -/
theorem c81_forward (env : Env) (henv : env.Ok) (hwf : env.wf) (l : Fields) (m tail : List Byte) (hm : Message l m) (src dst : Stream) (hsrc : Over src (m ++ tail))
    (hdepth : src.depth = 0) (hdst : Sink dst) (hb : Benign dst.inner.sched) (hroom : dst.pos + m.length + 11 ≤ U64MAX) (n : Nat) (hn : m.length ≤ n) :
    ∃ src' dst' m', forward n src dst = .ok () (src', dst') ∧ dst'.inner.data = written dst.inner.data dst.inner.pos m' ∧ dst'.pos = dst.pos + m'.length ∧ Sink dst' ∧
      YieldsNext src' (src.pos + m.length) src'.depth tail ∧ Message l m' ∧ m'.length ≤ m.length ∧
      ∀ t cfg, t.wf false = true → (∀ v c, Accepts env t cfg m' v c ↔ Accepts env t cfg m v c) ∧ (Rejects env t cfg m' ↔ Rejects env t cfg m) := by
  obtain ⟨ts, hts, henc⟩ := hm
  have hv := encToks_valid henc
  have hle := encToks_least henc
  have heq := forward_eq ts m henc n src dst _ _ tail (ready_sched hsrc.ready benign_nil) hdst.ready (stopsAt_top hts _ (by omega)) (Nat.le_trans (encToks_length henc) hn)
  obtain ⟨src', dst', h1, h2, h3, h4, h5⟩ := c26_copy ts m tail henc src dst hsrc hdst hb (by omega)
  have hm' : Message l (canonToks ts) := ⟨ts, hts, canonToks_enc hv⟩
  refine ⟨src', dst', canonToks ts, by rw [heq, h1], h2, h3, h4, h5, hm', hle, fun t cfg ht => ⟨fun v c => ?_, ?_⟩⟩
  · rw [c54_accepts env henv hwf t ht cfg l m ⟨ts, hts, henc⟩ (by omega), c54_accepts env henv hwf t ht cfg l _ hm' (by omega)]
  · rw [c54_rejects env henv hwf t ht cfg l m ⟨ts, hts, henc⟩ (by omega), c54_rejects env henv hwf t ht cfg l _ hm' (by omega)]

/-- **C81** Whatever the reader and the writer do meanwhile: what has been written is at any time the beginning of that copy; if the client succeeds, it is all of it. -/
theorem c81_failing (l : Fields) (m tail : List Byte) (hm : Message l m) (src dst : Stream)
    (hsrc : Over { src with inner := { src.inner with sched := [] } } (m ++ tail)) (hdepth : src.depth = 0) (hdst : Sink dst) (n : Nat) (hn : m.length ≤ n) :
    ∃ m' j, Message l m' ∧ m'.length ≤ m.length ∧ j ≤ m'.length ∧
      (forward n src dst).state.2.inner.data = written dst.inner.data dst.inner.pos (m'.take j) ∧ (forward n src dst).state.2.pos = dst.pos + j ∧
      (∀ u st, forward n src dst = .ok u st → j = m'.length ∧ Sink st.2) ∧
      (∀ e st, forward n src dst = .err e st → e.abnormal = false ∧ (¬ Benign src.inner.sched ∨ ¬ Benign dst.inner.sched ∨ U64MAX < dst.pos + m'.length + 11)) := by
  obtain ⟨ts, hts, henc⟩ := hm
  have hv := encToks_valid henc
  have heq := forward_eq ts m henc n src dst _ _ tail hsrc.ready hdst.ready (stopsAt_top hts _ (by show src.depth ≤ 1; omega)) (Nat.le_trans (encToks_length henc) hn)
  obtain ⟨j, h1, h2, h3, h4, h5⟩ := c26_copy_failing ts m tail henc src dst hsrc hdst
  rw [heq]
  exact ⟨canonToks ts, j, ⟨ts, hts, canonToks_enc hv⟩, encToks_least henc, h1, h2, h3, h4, h5⟩

/-- The message of C54's examples and a writer in the middle of its data meet the hypotheses. -/
example : Over (Stream.fromSlice exBytes) (exBytes ++ []) ∧ (Stream.fromSlice exBytes).depth = 0 ∧ Message exTree exBytes ∧ Sink (Stream.new ⟨[7], 1, [.short 0], false⟩) ∧
    exBytes.length ≤ 100 :=
  ⟨by rw [List.append_nil]; exact over_fromSlice _ (by decide), rfl, exMessage, ⟨.inl rfl, by decide⟩, by decide⟩

end Fourleaf.Props
