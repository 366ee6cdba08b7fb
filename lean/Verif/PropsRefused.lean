import Verif.PropsFail
import Verif.PropsCut

/-! # C71: a `seek` which fails is made up for by reading

`Ev.noSeek` at the front of the schedule: the next call of `seek` on the byte stream fails. `skip_by_seek` then reads the bytes instead. -/

namespace Fourleaf.Props
open Fourleaf Spec

theorem skipSeekDirect_refused {s : Stream} {n : Nat} {sc : List Ev} (hsc : Benign sc) (hk : s.inner.seekable = true) (hn : n ≤ U64MAX - s.pos) :
    ∃ sc', sc' <:+ sc ∧ skipSeekDirect n (onSched (.noSeek :: sc) s) = .ok (min n s.rest.length) (advBy s (min n s.rest.length) sc') := by
  unfold skipSeekDirect
  rw [if_neg (by show ¬ (U64MAX - s.pos < n); omega)]
  have h : innerSeek (.current n) (onSched (.noSeek :: sc) s) = .err (.io .device) (onSched sc s) := by
    unfold innerSeek Inner.seek
    rw [if_pos (by exact hk), if_pos (by rfl)]; rfl
  rw [h]
  obtain ⟨sc', h1, h2⟩ := skipByDiscard_exact (s := onSched sc s) (n := n) hsc hn
  exact ⟨sc', h1, h2⟩

/-- Skipping when the first `seek` is refused: bytes are read, and perhaps (if there are more than `i64::MAX`) there are more `seek`s later. -/
theorem skipBySeek_refused {s : Stream} {n : Nat} {sc : List Ev} (hsc : Benign sc) (hk : s.inner.seekable = true) (hn : n ≤ U64MAX - s.pos)
    (hw : n ≤ s.rest.length ∨ s.rest.length < I64MAX) :
    ∃ sc', sc' <:+ sc ∧ skipBySeek 4 n (onSched (.noSeek :: sc) s) = .ok (min n s.rest.length) (advBy s (min n s.rest.length) sc') := by
  rw [skipBySeek]
  by_cases hbig : n > I64MAX
  · rw [if_pos hbig]
    obtain ⟨sc', h1, h2⟩ := skipSeekDirect_refused hsc hk (n := I64MAX) (by omega)
    rw [M.bind_ok h2, M.ite_apply]
    by_cases hj : min I64MAX s.rest.length < I64MAX
    · rw [if_pos hj]
      refine ⟨sc', h1, ?_⟩
      rw [show min n s.rest.length = min I64MAX s.rest.length by omega]; rfl
    · rw [if_neg hj]
      have e : min I64MAX s.rest.length = I64MAX := by omega
      rw [e]
      have hU : U64MAX < 3 * I64MAX := by decide
      obtain ⟨k, sc2, g1, g2, ⟨g3, g4⟩ | ⟨g3, -⟩⟩ := skipBySeek_spec 3 (n - I64MAX) (advBy s I64MAX sc') (by simp; omega) (by omega)
      · rw [advBy_rest, List.length_drop] at g4
        have hk : k = n - I64MAX := by
          rcases Nat.lt_or_ge k (n - I64MAX) with h | h
          · have := g4 h; omega
          · omega
        rw [M.bind_ok g3, M.pure_apply, advBy_advBy]
        refine ⟨sc2, g2.trans h1, ?_⟩
        rw [show I64MAX + k = min n s.rest.length by omega]
      · exact absurd (hsc.suffix h1) g3
  · rw [if_neg hbig]; exact skipSeekDirect_refused hsc hk hn

theorem skipBlob_refused {s : Stream} {sc sc1 : List Ev} {k : Nat} (hpend : s.commit = some .skipBlob) (hrest : s.pos < s.blobEnd) (hu : s.useSeek = true)
    (h : skipBySeek 4 (s.blobEnd - s.pos) (onSched (.noSeek :: sc) s) = .ok k (advBy s k sc1)) :
    commit (onSched (.noSeek :: sc) s) = if k < s.blobEnd - s.pos then .err (.truncatedBlob (s.blobEnd - s.pos - k)) { advBy s k sc1 with live := false }
      else .ok () { advBy s k sc1 with commit := none, live := false } := by
  obtain ⟨t, ht⟩ : ∃ t, t = onSched (.noSeek :: sc) s := ⟨_, rfl⟩
  have t1 : t.commit = some .skipBlob := by rw [ht]; exact hpend
  have t2 : t.blobEnd = s.blobEnd := by rw [ht]; rfl
  have t3 : t.pos = s.pos := by rw [ht]; rfl
  have t4 : t.useSeek = true := by rw [ht]; exact hu
  rw [← ht] at h ⊢
  have hS : skipBlob t = if k < s.blobEnd - s.pos then .err (.truncatedBlob (s.blobEnd - s.pos - k)) (advBy s k sc1) else .ok () (advBy s k sc1) := by
    unfold skipBlob
    rw [t2, t3, if_pos hrest, t4]
    simp only [if_true]
    rw [h]
  unfold Fourleaf.commit
  rw [t1]
  simp only
  rw [hS]
  by_cases hk : k < s.blobEnd - s.pos
  · rw [if_pos hk, if_pos hk]
  · rw [if_neg hk, if_neg hk]

/-- **C71** The rest of a blob is to be skipped by seeking, and the `seek` fails (the reader is otherwise in order): if the input contains the whole blob, `commit` succeeds and leaves the stream in
the state in which it is left if the `seek` succeeds. -/
theorem c71_commit (s : Stream) (hi : Inv s) (hpend : s.commit = some .skipBlob) (hrest : s.pos < s.blobEnd) (hu : s.useSeek = true) (hk : s.inner.seekable = true)
    (hw : s.inner.pos + unread s ≤ s.inner.data.length) (sc : List Ev) (hsc : Benign sc) :
    ∃ (s2 : Stream) (sc1 sc2 : List Ev), sc1 <:+ sc ∧ sc2 <:+ sc ∧ s2.commit = none ∧ s2.pos = s.blobEnd ∧
      commit { s with inner := { s.inner with sched := .noSeek :: sc } } = .ok () { s2 with inner := { s2.inner with sched := sc1 } } ∧
      commit { s with inner := { s.inner with sched := sc } } = .ok () { s2 with inner := { s2.inner with sched := sc2 } } := by
  have hpe : s.blobEnd ≤ U64MAX := by
    rcases hi.pend with hp | hp
    · rw [hpend] at hp; cases hp
    · exact hp.2.2
  have hun : unread s = s.blobEnd - s.pos := by simp [unread, hpend]
  have hrl := rest_length s
  obtain ⟨sc1, h1, h2⟩ := skipBySeek_refused (s := s) (n := s.blobEnd - s.pos) hsc hk (by omega) (.inl (by omega))
  obtain ⟨k, sc2, g1, g2, ⟨g3, g4⟩ | ⟨g3, -⟩⟩ := commit_whole (s := onSched sc s) (onSched_lead (s := s) hsc |>.inv hi) hw
  · have g3 : k = unread s := g3
    rw [g3] at g4
    refine ⟨{ advBy s (unread s) sc1 with commit := none, live := false }, sc1, sc2, h1, g2, rfl, by simp; omega, ?_, g4⟩
    have h3 := skipBlob_refused (s := s) hpend hrest hu h2
    rw [if_neg (by omega), show min (s.blobEnd - s.pos) s.rest.length = unread s by omega] at h3
    exact h3
  · exact absurd hsc g3

/-- **C71** If the input ends inside of the blob, the failing `seek` makes this an error at once, with the number of missing bytes; `seek` would have succeeded (finding 1). -/
theorem c71_cut (s : Stream) (hi : Inv s) (hpend : s.commit = some .skipBlob) (hu : s.useSeek = true) (hk : s.inner.seekable = true)
    (hin : s.inner.pos ≤ s.inner.data.length) (hcut : s.inner.data.length < s.inner.pos + (s.blobEnd - s.pos)) (hsize : s.inner.data.length < I64MAX) (sc : List Ev) (hsc : Benign sc) :
    ∃ s', commit { s with inner := { s.inner with sched := .noSeek :: sc } } =
      .err (.truncatedBlob (s.inner.pos + (s.blobEnd - s.pos) - s.inner.data.length)) s' := by
  have hpe : s.blobEnd ≤ U64MAX := by
    rcases hi.pend with hp | hp
    · rw [hpend] at hp; cases hp
    · exact hp.2.2
  have hrl := rest_length s
  obtain ⟨sc1, h1, h2⟩ := skipBySeek_refused (s := s) (n := s.blobEnd - s.pos) hsc hk (by omega) (.inr (by omega))
  have h3 := skipBlob_refused (s := s) hpend (by omega) hu h2
  rw [if_pos (by omega), show min (s.blobEnd - s.pos) s.rest.length = s.rest.length by omega,
    show s.blobEnd - s.pos - s.rest.length = s.inner.pos + (s.blobEnd - s.pos) - s.inner.data.length by omega] at h3
  exact ⟨_, h3⟩

/-- **C71** So `next_element` and `next_field` return exactly what they return if the `seek` does not fail, and leave the stream in the same state. -/
theorem c71_next (s : Stream) (hi : Inv s) (hpend : s.commit = some .skipBlob) (hrest : s.pos < s.blobEnd) (hu : s.useSeek = true) (hk : s.inner.seekable = true)
    (hw : s.inner.pos + unread s ≤ s.inner.data.length) (sc : List Ev) (hsc : Benign sc) :
    let refused := { s with inner := { s.inner with sched := .noSeek :: sc } }
    let fine := { s with inner := { s.inner with sched := sc } }
    (∀ e s', nextElement refused = .ok e s' → ∃ sc', nextElement fine = .ok e { s' with inner := { s'.inner with sched := sc' } }) ∧
    (∀ e s', nextElement refused = .err e s' → ∃ sc', nextElement fine = .err e { s' with inner := { s'.inner with sched := sc' } }) ∧
    (∀ f s', nextField refused = .ok f s' → ∃ sc', nextField fine = .ok f { s' with inner := { s'.inner with sched := sc' } }) ∧
    (∀ e s', nextField refused = .err e s' → ∃ sc', nextField fine = .err e { s' with inner := { s'.inner with sched := sc' } }) := by
  intro refused fine
  obtain ⟨s2, sc1, sc2, h1, h2, h3, -, h4, h5⟩ := c71_commit s hi hpend hrest hu hk hw sc hsc
  have he : s.eof = false := by
    cases he : s.eof with
    | false => rfl
    | true => have := hi.eofCommit he; rw [hpend] at this; cases this
  have hi1 : Inv refused := ⟨hi.pos_le, hi.pend, hi.eofCommit, hi.eofDepth, hi.liveOk⟩
  have hi2 : Inv fine := ⟨hi.pos_le, hi.pend, hi.eofCommit, hi.eofDepth, hi.liveOk⟩
  have e1 := nextElementImpl_committed false (s := refused) he hi1 h4
  have e2 := nextElementImpl_committed false (s := fine) he hi2 h5
  have f1 := nextField_committed (s := refused) he hi1 h4
  have f2 := nextField_committed (s := fine) he hi2 h5
  have hrel : Rel false [] (onSched sc1 s2) (onSched sc2 s2) := ⟨by simp [ext, onSched], hsc.suffix h1, hsc.suffix h2, fun h => absurd rfl h, fun _ => rfl, fun _ => rfl⟩
  have hE := nextElementImpl_rel false hrel e1.2.2.1
  have hF := nextField_rel hrel e1.2.2.1
  have a1 : nextElement refused = nextElementImpl false (onSched sc1 s2) := e1.1
  have a2 : nextElement fine = nextElementImpl false (onSched sc2 s2) := e2.1
  have b1 : nextField refused = nextField (onSched sc1 s2) := f1
  have b2 : nextField fine = nextField (onSched sc2 s2) := f2
  rw [a1, a2, b1, b2]
  refine ⟨fun e s' hr => ?_, fun e s' hr => ?_, fun e s' hr => ?_, fun e s' hr => ?_⟩
  · obtain ⟨t, g1, g2⟩ := hE.ok e s' hr
    exact ⟨t.inner.sched, by have := g2.same rfl; rw [g1, g2.eq]; simp [ext, this]⟩
  · obtain ⟨t, g1, g2⟩ := (hE.err e s' hr).resolve_left fun h => h.1 rfl
    exact ⟨t.inner.sched, by have := g2.same rfl; rw [g1, g2.eq]; simp [ext, this]⟩
  · obtain ⟨t, g1, g2⟩ := hF.ok e s' hr
    exact ⟨t.inner.sched, by have := g2.same rfl; rw [g1, g2.eq]; simp [ext, this]⟩
  · obtain ⟨t, g1, g2⟩ := (hF.err e s' hr).resolve_left fun h => h.1 rfl
    exact ⟨t.inner.sched, by have := g2.same rfl; rw [g1, g2.eq]; simp [ext, this]⟩

/-! ### Examples -/

/-- A blob of 4 bytes has just been announced by a stream which seeks. -/
def exRefused : Stream := (nextElement (Stream.newSeek ⟨[0x82, 4, 1, 2, 3, 4, 0x41, 7], 0, [], true⟩)).state

example : Inv exRefused ∧ exRefused.commit = some .skipBlob ∧ exRefused.pos < exRefused.blobEnd ∧ exRefused.useSeek = true ∧ exRefused.inner.seekable = true ∧
    exRefused.inner.pos + unread exRefused ≤ exRefused.inner.data.length :=
  ⟨⟨by decide +kernel, .inr (by decide +kernel), by decide +kernel, by decide +kernel, fun _ => by decide +kernel⟩, by decide +kernel, by decide +kernel, by decide +kernel, by decide +kernel, by decide +kernel⟩

/-- The `seek` fails, the reader then gives a byte at a time: the field behind the blob is found. -/
example : (match nextElement { exRefused with inner := { exRefused.inner with sched := [.noSeek, .short 0, .short 0, .interrupted] } } with
    | .ok (.field f) s2 => decide (f.tag = 1 ∧ f.value = .int 7 ∧ s2.pos = 8) | _ => false) = true := by decide +kernel

/-- The hypothesis that there is something to skip is needed: otherwise there is no `seek`, and it is the next `read` that fails. -/
example : (match nextElement (Stream.newSeek ⟨[0x41, 7], 0, [.noSeek], true⟩) with
    | .err (.io .device) _ => true | _ => false) = true := by decide +kernel

/-- The input has only 2 of the 4 bytes: 2 are missing. -/
example : (match commit { exRefused with inner := { exRefused.inner with data := [0x82, 4, 1, 2], sched := [.noSeek] } } with
    | .err (.truncatedBlob 2) _ => true | _ => false) = true := by decide +kernel

end Fourleaf.Props
