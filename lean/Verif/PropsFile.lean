import Verif.FileSpec
import Verif.PropsTok

/-! # C66: a blob is a file of its own, and can be edited in place -/

namespace Fourleaf.Props
open Fourleaf Spec

/-- What a call returns. -/
def outcome {α : Type} : Res Err Stream α → Except Err α
  | .ok a _ => .ok a
  | .err e _ => .error e

/-- What a sequence of operations on a handle returns, operation by operation. -/
def blobTrace (len : Nat) : List BlobOp → Stream → List (Except Err BlobRes)
  | [], _ => []
  | o :: os, s => outcome (o.exec len s) :: blobTrace len os (o.exec len s).state

/-- The device underneath a stream. -/
def device (s : Stream) : Device := ⟨decide (s.inner.sched = []), s.inner.sched.any fun e => !e.fine, s.inner.seekable⟩

/-- `s` is the stream `s0`, after operations on the blob between `pre` and `post`, which is now the file `f`. -/
structure IsFile (s0 : Stream) (pre post : List Byte) (f : File) (s : Stream) : Prop where
  eq : s = { s0 with pos := s0.pos + f.cur, inner := { s0.inner with data := pre ++ f.content ++ post, pos := pre.length + f.cur, sched := s.inner.sched } }
  sched : s.inner.sched <:+ s0.inner.sched
  cur : f.cur ≤ f.content.length
  span : s0.pos + f.content.length = s0.blobEnd
  room : s0.pos + f.content.length + post.length ≤ U64MAX
  small : pre.length + f.content.length + post.length ≤ I64MAX

theorem File.left_length (f : File) : f.left.length = f.content.length - f.cur := by simp [File.left]

theorem File.put_length {f : File} {new : List Byte} (h : f.cur + new.length ≤ f.content.length) : (f.put new).length = f.content.length := by
  simp [File.put]; omega

section
variable {s0 s : Stream} {pre post : List Byte} {f : File}

theorem IsFile.pos (h : IsFile s0 pre post f s) : s.pos = s0.pos + f.cur := by rw [h.eq]
theorem IsFile.ipos (h : IsFile s0 pre post f s) : s.inner.pos = pre.length + f.cur := by rw [h.eq]
theorem IsFile.data (h : IsFile s0 pre post f s) : s.inner.data = pre ++ f.content ++ post := by rw [h.eq]
theorem IsFile.blobEnd (h : IsFile s0 pre post f s) : s.blobEnd = s0.pos + f.content.length := by rw [h.eq]; exact h.span.symm
theorem IsFile.seekable (h : IsFile s0 pre post f s) : s.inner.seekable = s0.inner.seekable := by rw [h.eq]

theorem IsFile.remaining (h : IsFile s0 pre post f s) : blobRemaining s = f.left.length := by
  unfold blobRemaining; rw [h.pos, h.blobEnd, File.left_length]; omega

theorem IsFile.rest (h : IsFile s0 pre post f s) : s.rest = f.left ++ post := by
  unfold Stream.rest Inner.rest File.left
  rw [h.data, h.ipos, List.append_assoc, ← List.drop_drop, List.drop_left, List.drop_append_of_le_length h.cur]

theorem IsFile.move (h : IsFile s0 pre post f s) {k : Nat} (hk : k ≤ f.left.length) {sc : List Ev} (hsc : sc <:+ s.inner.sched) :
    IsFile s0 pre post ⟨f.content, f.cur + k⟩ (advBy s k sc) := by
  rw [File.left_length] at hk
  have := h.cur
  refine ⟨?_, hsc.trans h.sched, by simp; omega, h.span, h.room, h.small⟩
  have e := h.eq
  rw [e]
  simp [advBy, Nat.add_assoc]

theorem IsFile.take (h : IsFile s0 pre post f s) {k : Nat} (hk : k ≤ f.left.length) : s.rest.take k = f.left.take k := by
  rw [h.rest, List.take_append_of_le_length hk]

theorem prompt_sched (h : IsFile s0 pre post f s) (hp : (device s0).prompt = true) : s.inner.sched = [] := by
  have : s0.inner.sched = [] := by simpa [device] using hp
  have hs := h.sched
  rw [this] at hs
  exact List.suffix_nil.1 hs

theorem faulty_sched (h : IsFile s0 pre post f s) (hb : ¬ Benign s.inner.sched) : (device s0).faulty = true := by
  cases hf : (device s0).faulty with
  | true => rfl
  | false =>
    refine absurd (fun e he => ?_) hb
    simp only [device, List.any_eq_false, Bool.not_eq_true, Bool.not_eq_false'] at hf
    exact hf e (h.sched.subset he)

theorem prompt_false (h : IsFile s0 pre post f s) (hs : s.inner.sched ≠ []) : (device s0).prompt = false := by
  cases hp : (device s0).prompt with
  | false => rfl
  | true => exact absurd (prompt_sched h hp) hs

/-- The claim for one operation. -/
def Steps (s0 : Stream) (pre post : List Byte) (f : File) (o : BlobOp) (r : Res Err Stream BlobRes) : Prop :=
  ∃ f', f.Does (device s0) o (outcome r) f' ∧ IsFile s0 pre post f' r.state

theorem read_file (h : IsFile s0 pre post f s) (want : Nat) : Steps s0 pre post f (.read want) ((BlobOp.read want).exec f.content.length s) := by
  show Steps _ _ _ _ _ ((do let b ← blobRead want; pure (.bytes b) : M Err Stream BlobRes) s)
  have hr := h.remaining
  have hc := h.cur
  have hroom := h.room
  have hl := File.left_length f
  have zero : min want f.left.length = 0 → blobRead want s = .ok [] s := by
    intro hz
    unfold blobRead
    simp only [hr]
    split
    · rfl
    · rw [hz]; unfold trackRead; rw [if_pos rfl]
  rcases Nat.eq_zero_or_pos (min want f.left.length) with hz | hz
  · rw [M.bind_ok (zero hz), M.pure_apply]
    refine ⟨_, .read (k := 0) ⟨by omega, by omega, fun _ => hz.symm⟩, ?_⟩
    simpa using h
  · have e : blobRead want s = trackRead false (min want f.left.length) s := by
      unfold blobRead
      simp only [hr]
      rw [if_neg (by omega)]
    rcases trackRead_spec false _ hz s with ⟨h1, h2⟩ | ⟨h1, h2⟩
    · rw [h.pos] at h1; omega
    · rcases h2 with ⟨k, sc, h2, h3, h4, h5, h6, h7, h8⟩ | ⟨sc, h2, h3, h4⟩ | ⟨sc, h2, h3, h4⟩ | ⟨sc, h2, h3, h4⟩
      · rw [M.bind_ok (e.trans h2), M.pure_apply]
        rw [h.take (by omega)]
        refine ⟨_, .read (k := k) ⟨h4, fun _ => h3, fun hp => ?_⟩, h.move (by omega) h6⟩
        have hs := prompt_sched h hp
        have : ¬ k < min (min want f.left.length) s.rest.length := fun hlt => by have := h7 hlt; rw [hs] at this; simp at this
        rw [h.rest] at this; simp at this; omega
      · rw [h.rest] at h2; simp at h2; rw [h2.1] at hz; simp at hz
      · rw [M.bind_err (e.trans h2)]
        exact ⟨_, .interrupted trivial (prompt_false h fun hs => by rw [hs] at h4; simp at h4), h.move (k := 0) (by omega) h3⟩
      · rw [M.bind_err (e.trans h2)]
        exact ⟨_, .failed trivial (faulty_sched h h4), h.move (k := 0) (by omega) h3⟩

theorem drain_file (h : IsFile s0 pre post f s) {n : Nat} (hn : n ≤ f.left.length) :
    ∃ k sc, k ≤ n ∧ sc <:+ s.inner.sched ∧ (k = n ∧ drain blobRead n s = .ok (f.left.take n) (advBy s n sc) ∨
      (device s0).faulty = true ∧ drain blobRead n s = .err (.io .device) (advBy s k sc)) := by
  have hE : s.blobEnd ≤ U64MAX := by rw [h.blobEnd]; have := h.room; omega
  obtain ⟨k, sc, a1, a2, a3, ⟨a4, a5⟩ | ⟨a4, a5⟩⟩ := drain_blob_spec n s (by rw [h.remaining]; exact hn) hE
  · have : k = n := by rw [h.rest] at a4; simp at a4; omega
    subst this
    exact ⟨k, sc, a1, a3, .inl ⟨rfl, by rw [a5, List.nil_append, h.take hn]⟩⟩
  · exact ⟨k, sc, a1, a3, .inr ⟨faulty_sched h a4, a5⟩⟩

theorem readFully_file (h : IsFile s0 pre post f s) (max : Nat) : Steps s0 pre post f (.readFully max) ((BlobOp.readFully max).exec f.content.length s) := by
  show Steps _ _ _ _ _ ((do let b ← Fourleaf.readFully max; pure (.bytes b) : M Err Stream BlobRes) s)
  have hr := h.remaining
  have hc := h.cur
  have hl := File.left_length f
  by_cases hm : blobRemaining s > max
  · rw [M.bind_err (show Fourleaf.readFully max s = .err (.largeBlob max f.left.length) s by unfold Fourleaf.readFully; rw [if_pos hm, hr])]
    exact ⟨_, .tooLarge (by omega), h⟩
  · have e : Fourleaf.readFully max s = drain blobRead f.left.length s := by unfold Fourleaf.readFully; rw [if_neg hm, hr]
    obtain ⟨k, sc, h1, h2, ⟨-, h3⟩ | ⟨h4, h3⟩⟩ := drain_file h (Nat.le_refl _)
    · rw [M.bind_ok (e.trans h3), M.pure_apply, List.take_length]
      refine ⟨_, .readFully (by omega), ?_⟩
      have := h.move (Nat.le_refl _) h2
      rw [hl, show f.cur + (f.content.length - f.cur) = f.content.length by omega] at this
      rw [hl]; exact this
    · rw [M.bind_err (e.trans h3)]
      exact ⟨_, .failedWithin trivial h1 h4, h.move h1 h2⟩

theorem readOrTrunc_file (h : IsFile s0 pre post f s) (max : Nat) :
    Steps s0 pre post f (.readOrTrunc max) ((BlobOp.readOrTrunc max).exec f.content.length s) := by
  show Steps _ _ _ _ _ ((do let b ← Fourleaf.readOrTrunc max; pure (.bytes b) : M Err Stream BlobRes) s)
  have hr := h.remaining
  have hc := h.cur
  have hl := File.left_length f
  have e : Fourleaf.readOrTrunc max s = drain blobRead (min max f.left.length) s := by unfold Fourleaf.readOrTrunc; rw [hr]
  obtain ⟨k, sc, h1, h2, ⟨-, h3⟩ | ⟨h4, h3⟩⟩ := drain_file h (n := min max f.left.length) (Nat.min_le_right _ _)
  · rw [M.bind_ok (e.trans h3), M.pure_apply]
    have e2 : f.left.take (min max f.left.length) = f.left.take max := by simp [List.take_eq_take_iff]
    rw [e2]
    refine ⟨_, .readOrTrunc, ?_⟩
    have := h.move (k := min max f.left.length) (Nat.min_le_right _ _) h2
    rw [show f.cur + min max f.left.length = min (f.cur + max) f.content.length by omega] at this
    exact this
  · rw [M.bind_err (e.trans h3)]
    exact ⟨_, .failedWithin trivial (by omega) h4, h.move (by omega) h2⟩

theorem slice_file (h : IsFile s0 pre post f s) : blobSlice s = .ok f.left s := by
  have hc := h.cur
  rcases blobSlice_cases s with ⟨-, -, hb⟩ | ⟨e, hb⟩
  · rw [hb, h.remaining, h.take (Nat.le_refl _), List.take_length]
  · exfalso
    unfold blobSlice innerSlice at hb
    rw [M.bind_apply, if_neg (by rw [h.ipos, h.data]; simp; omega)] at hb
    simp only at hb
    rw [M.bind_ok (M.get_apply s), M.ite_apply, if_pos (by rw [h.remaining, show s.inner.rest = s.rest from rfl, h.rest]; simp)] at hb
    cases hb

theorem put_data (h : IsFile s0 pre post f s) {new : List Byte} (hn : new.length ≤ f.left.length) :
    (pre ++ f.content ++ post).take (pre.length + f.cur) ++ new ++ (pre ++ f.content ++ post).drop (pre.length + f.cur + new.length) = pre ++ f.put new ++ post := by
  rw [File.left_length] at hn
  have hc := h.cur
  unfold File.put
  rw [List.append_assoc pre, List.take_length_add_append, List.take_append_of_le_length hc, Nat.add_assoc, List.drop_length_add_append,
    List.drop_append_of_le_length (by omega)]
  simp

theorem sliceMut_file (h : IsFile s0 pre post f s) (g : List Byte → List Byte) :
    Steps s0 pre post f (.sliceMut g) ((BlobOp.sliceMut g).exec f.content.length s) := by
  show Steps _ _ _ _ _ ((do let b ← blobSliceMut g; pure (.bytes b) : M Err Stream BlobRes) s)
  have hb := slice_file h
  have hc := h.cur
  have e : blobSliceMut g s = .ok f.left { s with inner := { s.inner with data := overwrite s.inner.data s.inner.pos ((g f.left).take f.left.length) } } := by
    unfold blobSliceMut
    rw [M.bind_ok hb, M.bind_ok (M.get_apply s), M.bind_ok (M.modify_apply _ _), M.pure_apply, show s.inner.rest = s.rest from rfl,
      h.take (Nat.le_refl _), List.take_length]
  rw [M.bind_ok e, M.pure_apply]
  have hnew : ((g f.left).take f.left.length).length ≤ f.left.length := by simp; omega
  have hput := File.put_length (f := f) (new := (g f.left).take f.left.length) (by rw [File.left_length] at hnew ⊢; omega)
  refine ⟨_, .sliceMut, ?_, h.sched, by show f.cur ≤ _; rw [hput]; exact hc, by rw [hput]; exact h.span, by rw [hput]; exact h.room, by rw [hput]; exact h.small⟩
  simp only [Res.state_ok, overwrite, h.data, h.ipos]
  rw [put_data h hnew]
  have e := h.eq
  rw [e]

theorem write_cases (i : Inner) (buf : List Byte) (hb : buf ≠ []) :
    (∃ k sc, i.write buf = .ok k { i with data := splice i.data i.pos (buf.take k), pos := i.pos + k, sched := sc } ∧ 0 < k ∧ k ≤ buf.length ∧ sc <:+ i.sched ∧
      (i.sched = [] → k = buf.length)) ∨
    (∃ sc, i.write buf = .err (.io .interrupted) { i with sched := sc } ∧ sc <:+ i.sched ∧ i.sched ≠ []) ∨
    (∃ sc, i.write buf = .err (.io .device) { i with sched := sc } ∧ sc <:+ i.sched ∧ ¬ Benign i.sched) ∨
    (∃ sc, i.write buf = .ok 0 { i with sched := sc } ∧ sc <:+ i.sched ∧ ¬ Benign i.sched) := by
  have hlen : 0 < buf.length := List.length_pos_iff.2 hb
  unfold Inner.write
  split
  · rename_i h
    refine .inl ⟨buf.length, [], ?_, hlen, Nat.le_refl _, by rw [h]; exact List.suffix_refl _, fun _ => rfl⟩
    rw [List.take_of_length_le (Nat.le_refl _)]
    simp [h]
  · rename_i k sc h
    refine .inl ⟨min (k + 1) buf.length, sc, ?_, by omega, Nat.min_le_right _ _, by rw [h]; exact List.suffix_cons _ _, fun h' => by rw [h] at h'; cases h'⟩
    have : buf.take (min (k + 1) buf.length) = buf.take (k + 1) := by simp [List.take_eq_take_iff]
    simp [this]
  · rename_i sc h; exact .inr (.inl ⟨sc, rfl, by rw [h]; exact List.suffix_cons _ _, by rw [h]; simp⟩)
  · rename_i sc h; exact .inr (.inr (.inr ⟨sc, rfl, by rw [h]; exact List.suffix_cons _ _, by rw [h]; simp [Benign, Ev.fine]⟩))
  · rename_i e sc h1 h2 _ h; exact .inr (.inr (.inl ⟨sc, rfl, by rw [h]; exact List.suffix_cons _ _, by rw [h]; exact not_benign h1 h2⟩))

theorem write_file (h : IsFile s0 pre post f s) (buf : List Byte) : Steps s0 pre post f (.write buf) ((BlobOp.write buf).exec f.content.length s) := by
  show Steps _ _ _ _ _ ((do let n ← blobWrite buf; pure (.num n) : M Err Stream BlobRes) s)
  have hr := h.remaining
  have hc := h.cur
  have hl := File.left_length f
  have hroom := h.room
  by_cases hz : buf.take f.left.length = []
  · have hz' : min buf.length f.left.length = 0 := by
      rcases List.take_eq_nil_iff.1 hz with h' | h'
      · omega
      · rw [h']; simp
    rw [M.bind_ok (show blobWrite buf s = .ok 0 s by unfold blobWrite trackWrite; rw [hr, if_pos hz]), M.pure_apply]
    refine ⟨_, .write (k := 0) ⟨by omega, by omega, fun _ => hz'.symm⟩, ?_⟩
    have : f.put (buf.take 0) = f.content := by simp [File.put]
    rw [this]; exact h
  · have hlen : (buf.take f.left.length).length = min buf.length f.left.length := by simp; omega
    have e : blobWrite buf s = match s.inner.write (buf.take f.left.length) with
        | .err e i => .err e { s with inner := i }
        | .ok n i => .ok n { s with inner := i, pos := s.pos + n } := by
      unfold blobWrite trackWrite
      rw [hr, if_neg hz, if_neg (by rw [hlen, h.pos]; omega)]
      cases s.inner.write (buf.take f.left.length) <;> rfl
    rcases write_cases s.inner _ hz with ⟨k, sc, h1, h2, h3, h4, h5⟩ | ⟨sc, h1, h2, h3⟩ | ⟨sc, h1, h2, h3⟩ | ⟨sc, h1, h2, h3⟩
    · rw [h1] at e
      rw [M.bind_ok e, M.pure_apply]
      rw [hlen] at h3
      have hk : (buf.take f.left.length).take k = buf.take k := by rw [List.take_take]; congr 1; omega
      have hkl : (buf.take k).length = k := by simp; omega
      have hput := File.put_length (f := f) (new := buf.take k) (by rw [hkl]; omega)
      refine ⟨_, .write (k := k) ⟨h3, fun _ => h2, fun hp => ?_⟩, ?_, h4.trans h.sched, by show f.cur + k ≤ _; rw [hput]; omega, by rw [hput]; exact h.span,
        by rw [hput]; exact h.room, by rw [hput]; exact h.small⟩
      · rw [h5 (prompt_sched h hp), hlen]
      · simp only [Res.state_ok, splice, hk, h.data, h.ipos, h.pos]
        rw [show pre.length + f.cur - (pre ++ f.content ++ post).length = 0 by simp; omega]
        simp only [List.replicate_zero, List.append_nil]
        rw [put_data h (new := buf.take k) (by rw [hkl]; omega)]
        have e := h.eq
        rw [e]
        simp [Nat.add_assoc]
    · rw [h1] at e
      rw [M.bind_err e]
      exact ⟨_, .interrupted trivial (prompt_false h h3), h.move (k := 0) (by omega) h2⟩
    · rw [h1] at e
      rw [M.bind_err e]
      exact ⟨_, .failed trivial (faulty_sched h h3), h.move (k := 0) (by omega) h2⟩
    · rw [h1] at e
      rw [M.bind_ok e, M.pure_apply]
      exact ⟨_, .full (faulty_sched h h3), h.move (k := 0) (by omega) h2⟩

theorem bufRead_file (h : IsFile s0 pre post f s) (g : List Byte → Nat) : Steps s0 pre post f (.bufRead g) ((BlobOp.bufRead g).exec f.content.length s) := by
  show Steps _ _ _ _ _ ((do let b ← blobBufRead g; pure (.bytes b) : M Err Stream BlobRes) s)
  have hr := h.remaining
  have hc := h.cur
  have hl := File.left_length f
  have hroom := h.room
  have hrest : s.rest.length = f.left.length + post.length := by rw [h.rest]; simp
  -- how much the reader offers
  have key : ∀ k sc, k ≤ s.rest.length → (0 < s.rest.length → 0 < k) → (s.inner.sched = [] → k = s.rest.length) → sc <:+ s.inner.sched →
      s.inner.fillBuf = .ok (s.rest.take k) { s.inner with sched := sc } →
      Steps s0 pre post f (.bufRead g) ((do let b ← blobBufRead g; pure (.bytes b) : M Err Stream BlobRes) s) := by
    intro k sc hk hpos hall hsc hi
    have hlen : (s.rest.take k).length = k := by simp; omega
    have h1 : fillBufNb s = .ok (s.rest.take k) (advBy s 0 sc) := by
      unfold fillBufNb; rw [hi]; simp only [M.bind_apply, checkAdvance, hlen]; rw [if_neg (by rw [h.pos]; omega)]; rfl
    have h2 : (s.rest.take k).take f.left.length = f.left.take (min k f.left.length) := by
      rw [h.rest, List.take_take, List.take_append_of_le_length (Nat.min_le_left _ _), Nat.min_comm]
    have h3 : blobBufRead g s = .ok (f.left.take (min k f.left.length)) (advBy s (min (g (f.left.take (min k f.left.length))) (min k f.left.length)) sc) := by
      unfold blobBufRead blobFillBuf
      rw [M.bind_ok (show (do let d ← fillBufNb; let s ← M.get; pure (d.take (blobRemaining s)) : M Err Stream (List Byte)) s = _ by
        rw [M.bind_ok h1, M.bind_ok (M.get_apply _), M.pure_apply])]
      rw [show blobRemaining (advBy s 0 sc) = f.left.length from hr, h2]
      unfold blobConsume
      rw [M.bind_ok (M.modify_apply _ _), M.pure_apply]
      rw [show (f.left.take (min k f.left.length)).length = min k f.left.length by simp]
      rfl
    rw [M.bind_ok h3, M.pure_apply]
    refine ⟨_, .bufRead (k := min k f.left.length) ⟨Nat.min_le_right _ _, by omega, fun hp => ?_⟩, h.move (by omega) hsc⟩
    have := hall (prompt_sched h hp)
    omega
  have hfill : ∀ e sc, s.inner.fillBuf = .err e { s.inner with sched := sc } → blobBufRead g s = .err e (advBy s 0 sc) := by
    intro e sc hi
    unfold blobBufRead blobFillBuf
    rw [M.bind_err (M.bind_err (show fillBufNb s = .err e (advBy s 0 sc) by unfold fillBufNb; rw [hi]; rfl))]
  cases hs : s.inner.sched with
  | nil =>
    refine key s.rest.length [] (Nat.le_refl _) (fun h => h) (fun _ => rfl) (by rw [hs]; exact List.suffix_refl _) ?_
    unfold Inner.fillBuf
    rw [hs]
    simp only
    rw [show s.inner.rest = s.rest from rfl, List.take_length, ← hs]
  | cons ev sc =>
    have hsuf : sc <:+ s.inner.sched := by rw [hs]; exact List.suffix_cons _ _
    cases ev with
    | short k =>
      refine key (min (k + 1) s.rest.length) sc (Nat.min_le_right _ _) (by omega) (fun h' => by rw [hs] at h'; cases h') hsuf ?_
      unfold Inner.fillBuf
      rw [hs]
      simp only
      have : s.rest.take (min (k + 1) s.rest.length) = s.rest.take (k + 1) := by simp [List.take_eq_take_iff]
      rw [this]; rfl
    | interrupted =>
      rw [M.bind_err (hfill (.io .interrupted) sc (by unfold Inner.fillBuf; rw [hs]))]
      exact ⟨_, .interrupted trivial (prompt_false h (by rw [hs]; simp)), h.move (k := 0) (by omega) hsuf⟩
    | fail =>
      rw [M.bind_err (hfill (.io .device) sc (by unfold Inner.fillBuf; rw [hs]))]
      exact ⟨_, .failed trivial (faulty_sched h (by rw [hs]; simp [Benign, Ev.fine])), h.move (k := 0) (by omega) hsuf⟩
    | noSeek =>
      rw [M.bind_err (hfill (.io .device) sc (by unfold Inner.fillBuf; rw [hs]))]
      exact ⟨_, .failed trivial (faulty_sched h (by rw [hs]; simp [Benign, Ev.fine])), h.move (k := 0) (by omega) hsuf⟩
    | full =>
      rw [M.bind_err (hfill (.io .device) sc (by unfold Inner.fillBuf; rw [hs]))]
      exact ⟨_, .failed trivial (faulty_sched h (by rw [hs]; simp [Benign, Ev.fine])), h.move (k := 0) (by omega) hsuf⟩

theorem IsFile.goto (h : IsFile s0 pre post f s) {n : Nat} (hn : n ≤ f.content.length) :
    IsFile s0 pre post ⟨f.content, n⟩ { s with pos := s0.pos + n, inner := { s.inner with pos := pre.length + n } } := by
  refine ⟨?_, h.sched, hn, h.span, h.room, h.small⟩
  have e := h.eq
  rw [e]

theorem seek_file (h : IsFile s0 pre post f s) (w : SeekFrom) : Steps s0 pre post f (.seek w) ((BlobOp.seek w).exec f.content.length s) := by
  show Steps _ _ _ _ _ ((do let n ← blobSeek f.content.length w; pure (.num n) : M Err Stream BlobRes) s)
  have hr := h.remaining
  have hc := h.cur
  have hl := File.left_length f
  have hroom := h.room
  have hsm := h.small
  have hp := h.pos
  have hi := h.ipos
  have hbe := h.blobEnd
  have htgt : blobSeekTarget f.content.length w s = if 0 ≤ f.target w ∧ f.target w ≤ (f.content.length : Int) then some (s0.pos + (f.target w).toNat) else none := by
    unfold blobSeekTarget File.target
    rw [hr, hbe, hp, hl]
    cases w with
    | start n =>
      simp only
      by_cases hn : n ≤ f.content.length
      · rw [if_pos hn, if_pos (by omega)]; congr 1; omega
      · rw [if_neg hn, if_neg (by omega)]
    | fromEnd off =>
      simp only
      by_cases h1 : off ≤ 0
      · rw [if_pos h1]
        by_cases h2 : off.natAbs ≤ f.content.length
        · rw [if_pos h2, if_pos (by omega)]; congr 1; omega
        · rw [if_neg h2, if_neg (by omega)]
      · rw [if_neg h1, if_neg (by omega)]
    | current off =>
      simp only
      by_cases h1 : off < 0
      · rw [if_pos h1]
        by_cases h2 : off.natAbs ≤ f.content.length - (f.content.length - f.cur)
        · rw [if_pos h2, if_pos (by omega)]; congr 1; omega
        · rw [if_neg h2, if_neg (by omega)]
      · rw [if_neg h1]
        by_cases h2 : off.toNat ≤ f.content.length - f.cur
        · rw [if_pos h2, if_pos (by omega)]; congr 1; omega
        · rw [if_neg h2, if_neg (by omega)]
  by_cases ht : 0 ≤ f.target w ∧ f.target w ≤ (f.content.length : Int)
  · rw [if_pos ht] at htgt
    obtain ⟨n, hn⟩ := Int.eq_ofNat_of_zero_le ht.1
    rw [hn] at ht htgt
    have hnl : n ≤ f.content.length := by omega
    -- the seek of the device
    have key : ∀ (off : Int) (q : Nat → Nat), (s.inner.pos : Int) + off = pre.length + n → q s.pos = s0.pos + n →
        blobSeek f.content.length w s = (do
            let _ ← innerSeek (.current off)
            M.modify fun s => { s with pos := q s.pos }
            let s ← M.get
            pure (f.content.length - blobRemaining s) : M Err Stream Nat) s →
        Steps s0 pre post f (.seek w) ((do let n ← blobSeek f.content.length w; pure (.num n) : M Err Stream BlobRes) s) := by
      intro off q ho hq hrun
      cases hsk : s.inner.seekable with
      | true =>
        by_cases hns : s.inner.sched.head? = some .noSeek
        · have e1 : innerSeek (.current off) s = .err (.io .device) (advBy s 0 s.inner.sched.tail) := by
            unfold innerSeek Inner.seek
            rw [if_pos hsk, if_pos hns]; rfl
          rw [M.bind_err (hrun.trans (M.bind_err e1))]
          exact ⟨_, .seekFailed (faulty_sched h (not_benign_noSeek hns)), h.move (k := 0) (by omega) (List.tail_suffix _)⟩
        have e1 : innerSeek (.current off) s = .ok (pre.length + n) { s with inner := { s.inner with pos := pre.length + n } } := by
          unfold innerSeek Inner.seek SeekFrom.target
          have hU : I64MAX ≤ U64MAX := by decide
          simp only [hsk, if_true, ho, if_neg hns]
          rw [if_pos (by omega)]
          rfl
        have e2 : blobSeek f.content.length w s = .ok n { s with pos := s0.pos + n, inner := { s.inner with pos := pre.length + n } } := by
          rw [hrun, M.bind_ok e1, M.bind_ok (M.modify_apply _ _), M.bind_ok (M.get_apply _), M.pure_apply]
          simp only [blobRemaining, hbe, hq]
          congr 1; omega
        rw [M.bind_ok e2, M.pure_apply]
        exact ⟨_, .seek hn hnl (by rw [show (device s0).seekable = s0.inner.seekable from rfl, ← h.seekable, hsk]), h.goto hnl⟩
      | false =>
        have e1 : innerSeek (.current off) s = .err (.io .other) s := by
          unfold innerSeek Inner.seek
          rw [hsk]; rfl
        rw [M.bind_err (hrun.trans (M.bind_err e1))]
        exact ⟨_, .seekNot (by rw [show (device s0).seekable = s0.inner.seekable from rfl, ← h.seekable, hsk]), h⟩
    rcases Nat.lt_or_ge (s0.pos + n) s.pos with hlt | hge
    · refine key (-((s.pos - (s0.pos + n) : Nat) : Int)) (fun p => p - (s.pos - (s0.pos + n))) (by omega) (by omega) ?_
      unfold blobSeek
      rw [htgt]
      simp only [Int.toNat_natCast]
      rw [if_pos hlt, if_neg (by omega)]
    · refine key ((s0.pos + n - s.pos : Nat) : Int) (fun p => p + (s0.pos + n - s.pos)) (by omega) (by omega) ?_
      unfold blobSeek
      rw [htgt]
      simp only [Int.toNat_natCast]
      rw [if_neg (by omega), if_neg (by omega)]
  · rw [if_neg ht] at htgt
    rw [M.bind_err (show blobSeek f.content.length w s = .err (.io .invalidInput) s by unfold blobSeek; rw [htgt])]
    exact ⟨_, .seekOut (by omega), h⟩

/-- Every operation on the handle is one on the file. -/
theorem exec_file (h : IsFile s0 pre post f s) (o : BlobOp) : Steps s0 pre post f o (o.exec f.content.length s) := by
  cases o with
  | read want => exact read_file h want
  | readFully max => exact readFully_file h max
  | readOrTrunc max => exact readOrTrunc_file h max
  | slice =>
    show Steps _ _ _ _ _ ((do let b ← blobSlice; pure (.bytes b) : M Err Stream BlobRes) s)
    rw [M.bind_ok (slice_file h), M.pure_apply]
    exact ⟨_, .slice, h⟩
  | sliceMut g => exact sliceMut_file h g
  | remaining =>
    refine ⟨f, ?_, h⟩
    show f.Does _ _ (Except.ok (.num (blobRemaining s))) _
    rw [h.remaining]
    exact .remaining
  | seek w => exact seek_file h w
  | write buf => exact write_file h buf
  | bufRead g => exact bufRead_file h g

theorem does_length {d : Device} {f f' : File} {o : BlobOp} {r : Except Err BlobRes} (hc : f.cur ≤ f.content.length) (h : f.Does d o r f') :
    f'.content.length = f.content.length := by
  have hl := File.left_length f
  cases h with
  | sliceMut => exact File.put_length (by rw [List.length_take]; omega)
  | write ht =>
    have := ht.1
    exact File.put_length (by rw [List.length_take]; omega)
  | _ => rfl

theorem run_file : ∀ (ops : List BlobOp) (f : File) (s : Stream), IsFile s0 pre post f s →
    ∃ f', f.Run (device s0) ops (blobTrace f.content.length ops s) f' ∧ IsFile s0 pre post f' (runBlobOps f.content.length ops s) ∧ f'.content.length = f.content.length := by
  intro ops
  induction ops with
  | nil => intro f s h; exact ⟨f, .nil, h, rfl⟩
  | cons o os ih =>
    intro f s h
    obtain ⟨f1, h1, h2⟩ := exec_file h o
    have hl := does_length h.cur h1
    obtain ⟨f2, h3, h4, h5⟩ := ih f1 _ h2
    rw [hl] at h3 h4
    exact ⟨f2, .cons h1 h3, h4, h5.trans hl⟩

end

/-- **C66** (a) A blob handle is a file of fixed size: whatever a client does with the handle (going on after errors as it likes), each operation returns what it returns on a
file with the content of the blob; afterwards the underlying data is as before except that the content of the blob is that of the file, and the handle is where the file's cursor is.
Nothing else of the stream has changed. -/
theorem c66_file (s : Stream) (pre content post : List Byte) (hs : Handed content.length s) (hdata : s.inner.data = pre ++ content ++ post) (hpos : s.inner.pos = pre.length)
    (hroom : s.pos + content.length + post.length ≤ U64MAX) (hsmall : s.inner.data.length ≤ I64MAX) (ops : List BlobOp) :
    ∃ f : File, File.Run (device s) ⟨content, 0⟩ ops (blobTrace content.length ops s) f ∧ f.content.length = content.length ∧ f.cur ≤ content.length ∧
      ∃ sched, sched <:+ s.inner.sched ∧
        runBlobOps content.length ops s = { s with pos := s.pos + f.cur, inner := { s.inner with data := pre ++ f.content ++ post, pos := pre.length + f.cur, sched := sched } } := by
  have h : IsFile s pre post ⟨content, 0⟩ s :=
    ⟨by simp only [Nat.add_zero]; rw [← hdata, ← hpos], List.suffix_refl _, Nat.zero_le _, hs.span, hroom, by rw [hdata] at hsmall; simp only [List.length_append] at hsmall; exact hsmall⟩
  obtain ⟨f, h1, h2, h3⟩ := run_file ops _ _ h
  exact ⟨f, h1, h3, h3 ▸ h2.cur, _, h2.sched, h2.eq⟩

/-! ## Editing a document in place -/

/-- What operations on the handle of an element with content (a blob or an exception) make of the element; the others stay as they are. -/
inductive EditedTok (s : Stream) (ops : List BlobOp) : Tok → Tok → Prop where
  | same {t} : (∀ tag c, t ≠ .blob tag c) → (∀ c, t ≠ .exception c) → EditedTok s ops t t
  | blob {tag c c' dev rs cur} : File.Run dev ⟨c, 0⟩ ops rs ⟨c', cur⟩ → dev.faulty = false → dev.seekable = s.inner.seekable →
      (s.inner.sched = [] → dev.prompt = true) → EditedTok s ops (.blob tag c) (.blob tag c')
  | exception {c c' dev rs cur} : File.Run dev ⟨c, 0⟩ ops rs ⟨c', cur⟩ → dev.faulty = false → dev.seekable = s.inner.seekable →
      (s.inner.sched = [] → dev.prompt = true) → EditedTok s ops (.exception c) (.exception c')

/-- Element by element. -/
inductive EditedAll (s : Stream) : List (List BlobOp) → List Tok → List Tok → Prop where
  | nil : EditedAll s [] [] []
  | cons {ops opss t ts t' ts'} : EditedTok s ops t t' → EditedAll s opss ts ts' → EditedAll s (ops :: opss) (t :: ts) (t' :: ts')

theorem EditedTok.mono {s0 s : Stream} {ops : List BlobOp} {t t' : Tok} (h : EditedTok s ops t t') (h1 : s.inner.sched <:+ s0.inner.sched)
    (h2 : s.inner.seekable = s0.inner.seekable) : EditedTok s0 ops t t' := by
  have hp : s0.inner.sched = [] → s.inner.sched = [] := fun h => by rw [h] at h1; exact List.suffix_nil.1 h1
  cases h with
  | same a b => exact .same a b
  | blob a b c d => exact .blob a b (c.trans h2) fun h => d (hp h)
  | exception a b c d => exact .exception a b (c.trans h2) fun h => d (hp h)

theorem EditedAll.mono {s0 s : Stream} {opss : List (List BlobOp)} {ts ts' : List Tok} (h : EditedAll s opss ts ts') (h1 : s.inner.sched <:+ s0.inner.sched)
    (h2 : s.inner.seekable = s0.inner.seekable) : EditedAll s0 opss ts ts' := by
  induction h with
  | nil => exact .nil
  | cons h _ ih => exact .cons (h.mono h1 h2) ih

/-- Replacing the content of a spelled element. -/
theorem enc_replace {t : Tok} {enc c c' : List Byte} (h : EncTok t enc) (hc : contentOf t = some c) (hl : c'.length = c.length) :
    ∃ header t', enc = header ++ c ∧ EncTok t' (header ++ c') ∧ (∀ s ops dev rs cur, File.Run dev ⟨c, 0⟩ ops rs ⟨c', cur⟩ → dev.faulty = false →
      dev.seekable = s.inner.seekable → (s.inner.sched = [] → dev.prompt = true) → EditedTok s ops t t') := by
  cases h with
  | blob h1 h2 h3 h4 =>
    simp only [contentOf, Option.some.injEq] at hc
    subst hc
    exact ⟨_, .blob _ c', rfl, .blob h1 h2 (hl ▸ h3) (hl ▸ h4), fun _ _ _ _ _ => .blob⟩
  | exception h1 h2 =>
    simp only [contentOf, Option.some.injEq] at hc
    subst hc
    exact ⟨_, .exception c', rfl, .exception (hl ▸ h1) (hl ▸ h2), fun _ _ _ _ _ => .exception⟩
  | _ => simp [contentOf] at hc

theorem edit_step {s : Stream} {p d : Nat} {tok : Tok} {done enc l : List Byte} (h : Ready s p d false (enc ++ l)) (hdata : s.inner.data = done ++ (enc ++ l))
    (hsmall : s.inner.data.length ≤ I64MAX) (ht : EncTok tok enc) (ops : List BlobOp) :
    ∃ s' tok' enc', Fourleaf.nextElement s = .ok (elemOf p d tok) s' ∧ Ready (afterVisit ops (elemOf p d tok) s') (p + enc.length) (tok.depthAfter d) false l ∧
      (afterVisit ops (elemOf p d tok) s').inner.data = done ++ (enc' ++ l) ∧ enc'.length = enc.length ∧ EncTok tok' enc' ∧ EditedTok s ops tok tok' ∧
      (afterVisit ops (elemOf p d tok) s').inner.sched <:+ s.inner.sched ∧ (afterVisit ops (elemOf p d tok) s').inner.seekable = s.inner.seekable := by
  obtain ⟨s1, h1, h2, h3⟩ := h.nextElement ht
  have hf : Frame s s1 := by
    obtain ⟨v, hv, -⟩ := h
    have := (nextElement_safe hv.inv).1.step.frame
    rw [h1] at this; exact this
  have hd1 := hf.data.trans hdata
  refine ⟨s1, ?_⟩
  suffices ∃ tok' enc', Ready (afterVisit ops (elemOf p d tok) s1) (p + enc.length) (tok.depthAfter d) false l ∧
      (afterVisit ops (elemOf p d tok) s1).inner.data = done ++ (enc' ++ l) ∧ enc'.length = enc.length ∧ EncTok tok' enc' ∧ EditedTok s ops tok tok' ∧
      (afterVisit ops (elemOf p d tok) s1).inner.sched <:+ s.inner.sched ∧ (afterVisit ops (elemOf p d tok) s1).inner.seekable = s.inner.seekable by
    obtain ⟨tok', enc', h⟩ := this
    exact ⟨tok', enc', h1, h⟩
  unfold afterVisit
  by_cases he : tok = .endDoc
  · subst he
    rw [if_pos (by rfl)]
    exact ⟨.endDoc, enc, h3.clearEof, hd1, rfl, ht, .same (by simp) (by simp), hf.sched, hf.seekable⟩
  · rw [if_neg (fun h => he ((elemOf_endOfDoc p d tok).1 h)), blobLen_elemOf]
    rw [decide_eq_false he] at h2 h3
    cases hc : contentOf tok with
    | none => exact ⟨tok, enc, h3, hd1, rfl, ht, .same (fun _ _ h => by subst h; cases hc) (fun _ h => by subst h; cases hc), hf.sched, hf.seekable⟩
    | some content =>
      simp only [Option.map_some]
      obtain ⟨c1, c2, c3⟩ := h2.some content hc
      have hroom := h2.room
      have hbytes := h2.bytes
      simp only [View.curBytes, hc, Option.getD_some] at hroom hbytes
      have hw := h2.within
      have hp2 := h2.pos
      simp only [hc, Option.getD_some] at hp2
      obtain ⟨header, -, henc, -, -⟩ := enc_replace (c' := content) ht hc rfl
      have hlen := rest_length s1
      rw [hbytes, hd1, henc] at hlen
      simp only [List.length_append] at hlen
      rw [hd1, henc] at hw
      simp only [List.length_append] at hw
      have hip : s1.inner.pos = (done ++ header).length := by simp only [List.length_append]; omega
      have hroom' : s1.pos + content.length + l.length ≤ U64MAX := by rw [hp2]; simpa [hc] using hroom
      obtain ⟨f, g1, g2, g3, sched, g4, g5⟩ := c66_file s1 (done ++ header) content l ⟨c3.symm, by omega, by rw [hd1, henc]; simp only [List.length_append]; omega⟩
        (by rw [hd1, henc]; simp) hip hroom' (by rw [hf.data]; exact hsmall) ops
      obtain ⟨header', tok', henc', ht', hed⟩ := enc_replace ht hc g2
      have hh : header' = header := List.append_cancel_right (henc'.symm.trans henc)
      subst hh
      rw [g5]
      have hlenc := content_le ht
      rw [hc] at hlenc
      simp only [Option.getD_some] at hlenc
      have hle : enc.length = header'.length + content.length := by rw [henc]; simp
      have hbe : s1.blobEnd = s1.pos + content.length := c3
      refine ⟨tok', header' ++ f.content, ?_, by simp, by rw [hle]; simp [g2], ht', (hed s1 ops (device s1) _ f.cur g1 ?_ rfl (by simp [device])).mono hf.sched hf.seekable,
        g4.trans hf.sched, hf.seekable⟩
      · refine ⟨⟨s1.pos + f.cur, tok.depthAfter d, false, some (f.content.drop f.cur), l⟩, ⟨⟨?_, .inr ⟨c1, ?_, ?_⟩, ?_, ?_, ?_⟩, h2.ben.suffix g4, rfl, h2.depth, h2.eof, ?_, ?_, ?_, ?_, ?_⟩, rfl, ?_, rfl, rfl⟩
        · simp; omega
        · simp; omega
        · simp; omega
        · intro he'; have := h2.inv.eofCommit he'; rw [c1] at this; cases this
        · intro he'; exact h2.inv.eofDepth he'
        · intro _; exact ⟨c1, by simp; omega⟩
        · simp only [View.curBytes, Option.getD_some, Stream.rest, Inner.rest]
          rw [show (done ++ header').length + f.cur = (done ++ header').length + f.cur from rfl, List.append_assoc (done ++ header'), List.drop_length_add_append,
            List.drop_append_of_le_length (by omega)]
        · simp; omega
        · simp [View.curBytes]; omega
        · intro h'; cases h'
        · intro c h'
          simp only [Option.some.injEq] at h'
          subst h'
          exact ⟨c1, c2, by simp; omega⟩
        · simp only [View.flush, View.curBytes, Option.getD_some, List.length_drop, g2, hp2]
          omega
      · simp only [device, List.any_eq_false, Bool.not_eq_true, Bool.not_eq_false']
        exact h2.ben

theorem edit_all : ∀ (ps : List (Tok × List Byte)) (opss : List (List BlobOp)) (s : Stream) (p d : Nat) (done l : List Byte),
    (∀ x ∈ ps, EncTok x.1 x.2) → opss.length = ps.length → Ready s p d false (ps.flatMap (·.2) ++ l) → s.inner.data = done ++ (ps.flatMap (·.2) ++ l) →
    s.inner.data.length ≤ I64MAX →
    ∃ s' ts' bs', visitAll opss s = .ok (expected p d ps) s' ∧ s'.inner.data = done ++ (bs' ++ l) ∧ bs'.length = (ps.flatMap (·.2)).length ∧ EncToks ts' bs' ∧
      EditedAll s opss (ps.map (·.1)) ts' := by
  intro ps
  induction ps with
  | nil =>
    intro opss s p d done l _ hl h hd _
    cases opss with
    | nil => exact ⟨s, [], [], rfl, by simpa using hd, rfl, .nil, .nil⟩
    | cons => simp at hl
  | cons x ps ih =>
    intro opss s p d done l hx hl h hd hs
    cases opss with
    | nil => simp at hl
    | cons ops opss =>
      obtain ⟨t, bs⟩ := x
      simp only [List.flatMap_cons, List.append_assoc] at h hd
      obtain ⟨s1, t', bs', h1, h2, h3, h4, h5, h6, h7, h8⟩ := edit_step h hd hs (hx (t, bs) (by simp)) ops
      have hlen : (afterVisit ops (elemOf p d t) s1).inner.data.length = s.inner.data.length := by rw [h3, hd]; simp [h4]
      obtain ⟨s2, ts2, bs2, g1, g2, g3, g4, g5⟩ := ih opss _ _ _ (done ++ bs') l (fun y hy => hx y (by simp [hy])) (by simpa using hl) h2 (by rw [h3]; simp) (by rw [hlen]; exact hs)
      refine ⟨s2, t' :: ts2, bs' ++ bs2, ?_, by rw [g2]; simp, by simp [h4, g3], .cons h5 g4, .cons h6 (g5.mono h7 h8)⟩
      simp only [visitAll]
      rw [M.bind_ok h1, M.bind_ok (M.modify_apply _ _), M.bind_ok g1]; rfl

/-- **C66** (b) A client reads a document element by element and does what it likes with the handles of its blobs, including writing to them and changing slices: it sees the elements of the
document in order, and leaves behind a document with the same elements except that the content of each blob is what these operations make of a file with the old content; and a reader
of the result gets exactly these elements. -/
theorem c66_edit_in_place (s : Stream) (ps : List (Tok × List Byte)) (l : List Byte) (hs : Over s (ps.flatMap (·.2) ++ l)) (hps : ∀ x ∈ ps, EncTok x.1 x.2)
    (hsmall : s.inner.data.length ≤ I64MAX) (opss : List (List BlobOp)) (hl : opss.length = ps.length) :
    ∃ s' ts' bs', visitAll opss s = .ok (expected s.pos s.depth ps) s' ∧ s'.inner.data = s.inner.data.take s.inner.pos ++ (bs' ++ l) ∧
      bs'.length = (ps.flatMap (·.2)).length ∧ EncToks ts' bs' ∧ EditedAll s opss (ps.map (·.1)) ts' ∧
      ∀ r : Stream, Over r (bs' ++ l) → ∃ r', readToks ts'.length r = .ok ts' r' := by
  obtain ⟨s', ts', bs', h1, h2, h3, h4, h5⟩ := edit_all ps opss s _ _ (s.inner.data.take s.inner.pos) l hps hl hs.ready
    (by rw [← hs.rest, List.take_append_drop]) hsmall
  refine ⟨s', ts', bs', h1, h2, h3, h4, h5, fun r hr => ?_⟩
  obtain ⟨r', h6, -⟩ := c08_read_back r ts' bs' l hr h4
  exact ⟨r', h6⟩

/-- (c) Over data in memory (nothing is interrupted or cut short, seeking works) the file, and hence the handle, is deterministic. -/
theorem c66_deterministic {d : Device} (hp : d.prompt = true) (hf : d.faulty = false) (hs : d.seekable = true) {f f1 f2 : File} {ops : List BlobOp}
    {r1 r2 : List (Except Err BlobRes)} (h1 : f.Run d ops r1 f1) (h2 : f.Run d ops r2 f2) : r1 = r2 ∧ f1 = f2 := by
  have one : ∀ {f f1 f2 : File} {o : BlobOp} {r1 r2 : Except Err BlobRes}, f.Does d o r1 f1 → f.Does d o r2 f2 → r1 = r2 ∧ f1 = f2 := by
    intro f f1 f2 o r1 r2 h1 h2
    cases h1 with
    | read a => cases h2 with
      | read b => rw [a.2.2 hp, b.2.2 hp]; exact ⟨rfl, rfl⟩
      | interrupted _ b => rw [hp] at b; cases b
      | failed _ b => rw [hf] at b; cases b
      | failedWithin b => cases b
    | readFully a => cases h2 with
      | readFully => exact ⟨rfl, rfl⟩
      | tooLarge b => omega
      | interrupted b => cases b
      | failed b => cases b
      | failedWithin _ _ b => rw [hf] at b; cases b
    | tooLarge a => cases h2 with
      | readFully b => omega
      | tooLarge => exact ⟨rfl, rfl⟩
      | interrupted b => cases b
      | failed b => cases b
      | failedWithin _ _ b => rw [hf] at b; cases b
    | readOrTrunc => cases h2 with
      | readOrTrunc => exact ⟨rfl, rfl⟩
      | interrupted b => cases b
      | failed b => cases b
      | failedWithin _ _ b => rw [hf] at b; cases b
    | slice => cases h2 with
      | slice => exact ⟨rfl, rfl⟩
      | interrupted b => cases b
      | failed b => cases b
      | failedWithin b => cases b
    | sliceMut => cases h2 with
      | sliceMut => exact ⟨rfl, rfl⟩
      | interrupted b => cases b
      | failed b => cases b
      | failedWithin b => cases b
    | remaining => cases h2 with
      | remaining => exact ⟨rfl, rfl⟩
      | interrupted b => cases b
      | failed b => cases b
      | failedWithin b => cases b
    | seek a b => cases h2 with
      | seek a' => rw [a] at a'; cases Int.ofNat.inj a'; exact ⟨rfl, rfl⟩
      | seekOut a' => rw [a] at a'; omega
      | seekNot c => rw [hs] at c; cases c
      | seekFailed c => rw [hf] at c; cases c
      | interrupted b => cases b
      | failed b => cases b
      | failedWithin b => cases b
    | seekOut a => cases h2 with
      | seek a' => rw [a'] at a; omega
      | seekOut a' => exact ⟨rfl, rfl⟩
      | seekNot c => rw [hs] at c; cases c
      | seekFailed c => rw [hf] at c; cases c
      | interrupted b => cases b
      | failed b => cases b
      | failedWithin b => cases b
    | seekNot c => rw [hs] at c; cases c
    | write a => cases h2 with
      | write b => rw [a.2.2 hp, b.2.2 hp]; exact ⟨rfl, rfl⟩
      | full b => rw [hf] at b; cases b
      | interrupted _ b => rw [hp] at b; cases b
      | failed _ b => rw [hf] at b; cases b
      | failedWithin b => cases b
    | bufRead a => cases h2 with
      | bufRead b => rw [a.2.2 hp, b.2.2 hp]; exact ⟨rfl, rfl⟩
      | interrupted _ b => rw [hp] at b; cases b
      | failed _ b => rw [hf] at b; cases b
      | failedWithin b => cases b
    | interrupted _ b => rw [hp] at b; cases b
    | failed _ b => rw [hf] at b; cases b
    | seekFailed b => rw [hf] at b; cases b
    | full b => rw [hf] at b; cases b
    | failedWithin _ _ b => rw [hf] at b; cases b
  induction h1 generalizing r2 f2 with
  | nil => cases h2; exact ⟨rfl, rfl⟩
  | cons a _ ih =>
    cases h2 with
    | cons b h2 =>
      obtain ⟨rfl, rfl⟩ := one a b
      obtain ⟨rfl, rfl⟩ := ih h2
      exact ⟨rfl, rfl⟩

/-! ### Examples -/

/-- Write, seek, overflow the end, seek outside, read. -/
def exFileOps : List BlobOp := [.write [9], .seek (.fromEnd (-1)), .write [8, 8], .seek (.current 1), .seek (.start 1), .readFully 10, .sliceMut fun _ => [1]]

/-- The file `1 2 3` after these operations is `9 2 8`. -/
theorem exFile_run : File.Run (device c18Start) ⟨[1, 2, 3], 0⟩ exFileOps
    [.ok (.num 1), .ok (.num 2), .ok (.num 1), .error (.io .invalidInput), .ok (.num 1), .ok (.bytes [2, 8]), .ok (.bytes [])] ⟨[9, 2, 8], 3⟩ := by
  have t : ∀ n, (0 : Nat) < n → (device c18Start).transfers n n := fun n h => ⟨Nat.le_refl _, fun _ => h, fun _ => rfl⟩
  exact .cons (f' := ⟨[9, 2, 3], 1⟩) (.write (buf := [9]) (k := 1) (t 1 (by decide)))
    (.cons (f' := ⟨[9, 2, 3], 2⟩) (.seek (n := 2) (by decide) (by decide) rfl)
    (.cons (f' := ⟨[9, 2, 8], 3⟩) (.write (buf := [8, 8]) (k := 1) (t 1 (by decide)))
    (.cons (.seekOut (by decide))
    (.cons (f' := ⟨[9, 2, 8], 1⟩) (.seek (n := 1) (by decide) (by decide) rfl)
    (.cons (f' := ⟨[9, 2, 8], 3⟩) (.readFully (f := ⟨[9, 2, 8], 1⟩) (by decide))
    (.cons (f' := ⟨[9, 2, 8], 3⟩) (.sliceMut (f := ⟨[9, 2, 8], 3⟩) (g := fun _ => [1])) .nil))))))

/-- So the handle returns this, and the document then contains it. -/
example : blobTrace 3 exFileOps c18Start = [.ok (.num 1), .ok (.num 2), .ok (.num 1), .error (.io .invalidInput), .ok (.num 1), .ok (.bytes [2, 8]), .ok (.bytes [])] ∧
    (runBlobOps 3 exFileOps c18Start).inner.data = [0x81, 3, 9, 2, 8, 0x41, 7] := by
  obtain ⟨f, h1, -, -, sc, -, h2⟩ := c66_file c18Start [0x81, 3] [1, 2, 3] [0x41, 7] ⟨by decide, by decide, by decide⟩ rfl rfl (by decide) (by decide) exFileOps
  obtain ⟨e1, e2⟩ := c66_deterministic rfl rfl rfl h1 exFile_run
  subst e2
  exact ⟨e1, by rw [show (3 : Nat) = ([1, 2, 3] : List Byte).length from rfl, h2]; rfl⟩

/-- A device that is full and refuses to seek: one byte is written, then none, and the cursor stays. -/
example : blobTrace 3 [.write [9, 9], .write [8], .seek (.start 0), .readFully 10] { c18Start with inner := { c18Start.inner with sched := [.short 0, .full, .noSeek] } } =
    [.ok (.num 1), .ok (.num 0), .error (.io .device), .ok (.bytes [2, 3])] := by rfl

/-- A document of four elements, whose blob is overwritten while it is read: the hypotheses of (b). -/
example : ∃ s' ts' bs', visitAll [[], [.seek (.start 1), .write [5, 5, 5, 5]], [], []] (Stream.fromSlice (c10Pieces.flatMap (·.2))) = .ok (expected 0 0 c10Pieces) s' ∧
    s'.inner.data = bs' ∧ EncToks ts' bs' ∧ bs'.length = 11 := by
  obtain ⟨s', ts', bs', h1, h2, h3, h4, -, -⟩ := c66_edit_in_place (Stream.fromSlice (c10Pieces.flatMap (·.2))) c10Pieces [] (over_fromSlice _ (by decide)) (by
    intro x hx
    simp only [c10Pieces, List.mem_cons, List.not_mem_nil, or_false] at hx
    rcases hx with rfl | rfl | rfl | rfl
    · exact .struct (by decide) rfl
    · exact EncTok.blob (g := [0x83, 0x80, 0x00]) (by decide) rfl ⟨by unfold IsGroup; decide, by decide, by decide⟩ (by decide)
    · exact .endStruct
    · exact .int (by decide) rfl ⟨by unfold IsGroup; decide, by decide, by decide⟩) (by decide) [[], [.seek (.start 1), .write [5, 5, 5, 5]], [], []] rfl
  exact ⟨s', ts', bs', h1, by simpa [Stream.fromSlice, Stream.newSeek, Stream.new] using h2, h4, h3⟩

/-- It is the same run as by evaluation. -/
example : (match visitAll [[], [.seek (.start 1), .write [5, 5, 5, 5]], [], []] (Stream.fromSlice (c10Pieces.flatMap (·.2))) with | .ok _ s' => s'.inner.data | .err .. => []) =
    [0xC5, 0x81, 0x83, 0x80, 0x00, 7, 5, 5, 0x00, 0x42, 1] := by decide +kernel

end Fourleaf.Props
