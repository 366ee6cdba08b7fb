import Verif.Abs

/-! # A `Stream` over spelled elements refines the abstract stream -/

namespace Fourleaf
open Spec

theorem Spec.EncTok.ne_nil {t : Tok} {bs : List Byte} (h : EncTok t bs) : 0 < bs.length := by
  cases h <;> simp <;> omega

/-- Some header sizes fit any spelling. -/
theorem Spec.EncToks.toH {ts : List Tok} {bs : List Byte} (h : EncToks ts bs) :
    ∃ hs, EncH hs bs ∧ hs.map (·.2) = ts := by
  induction h with
  | nil => exact ⟨[], .nil, rfl⟩
  | @cons t ts bs bs' ht _ ih =>
    obtain ⟨hs, h1, h2⟩ := ih
    have : ((contentOf t).getD []).length ≤ bs.length := by
      cases ht <;> simp [contentOf] <;> omega
    exact ⟨(bs.length - ((contentOf t).getD []).length, t) :: hs, .cons ht (by omega) h1, by simp [h2]⟩

theorem EncH.toToks {hs : List HTok} {bs : List Byte} (h : EncH hs bs) : EncToks (hs.map (·.2)) bs := by
  induction h with
  | nil => exact .nil
  | cons ht _ _ ih => exact .cons ht ih

theorem EncH.length_le {hs : List HTok} {bs : List Byte} (h : EncH hs bs) : hs.length ≤ bs.length := by
  induction h with
  | nil => simp
  | cons ht _ _ ih => have := ht.ne_nil; simp; omega

/-- The stream represents the abstract stream. -/
structure Abs (s : Stream) (t : TS) : Prop where
  at_ : ∃ rest, At s ⟨t.pos, t.depth, t.eof, t.cur, rest⟩ ∧ EncH t.toks rest ∧
    t.pos + (t.cur.getD []).length + rest.length < U64MAX
  graceful : s.graceful = t.graceful

/-- Both runs end the same way in related states. -/
def RA {α : Type} : Res Err Stream α → Res Err TS α → Prop
  | .ok a s, .ok b t => a = b ∧ Abs s t
  | .err e s, .err e' t => e = e' ∧ Abs s t
  | _, _ => False

theorem RA.bind {α β : Type} {m : M Err Stream α} {f : α → M Err Stream β} {m' : M Err TS α} {f' : α → M Err TS β}
    {s : Stream} {t : TS} (h : RA (m s) (m' t)) (hf : ∀ a s' t', m s = .ok a s' → Abs s' t' → RA (f a s') (f' a t')) :
    RA ((m >>= f) s) ((m' >>= f') t) := by
  rw [M.bind_apply, M.bind_apply]
  cases hm : m s with
  | ok a s' =>
    cases hm' : m' t with
    | ok b t' => rw [hm, hm'] at h; obtain ⟨rfl, h2⟩ := h; exact hf _ _ _ hm h2
    | err e t' => rw [hm, hm'] at h; exact h.elim
  | err e s' =>
    cases hm' : m' t with
    | ok b t' => rw [hm, hm'] at h; exact h.elim
    | err e' t' => rw [hm, hm'] at h; exact h

theorem Abs.inv {s : Stream} {t : TS} (h : Abs s t) : Inv s := by
  obtain ⟨_, h1, -⟩ := h.at_; exact h1.inv

theorem commit_abs {s : Stream} {t : TS} (h : Abs s t) : ∃ s', commit s = .ok () s' ∧ Abs s' t.flush := by
  obtain ⟨rest, h1, h2, h3⟩ := h.at_
  have hC := commit_safe h.inv
  obtain ⟨s', h4, h5, -⟩ := commit_at h1
  rw [h4] at hC
  refine ⟨s', h4, ⟨⟨rest, h5, h2, ?_⟩, (hC.1.step.frame.graceful).trans h.graceful⟩⟩
  simp [TS.flush]; omega

theorem readElement_abs {s : Stream} {t : TS} (h : Abs s t) (hc : t.cur = none) (he : t.eof = false) :
    RA (readElement s) (TS.readElement t) := by
  obtain ⟨rest, h1, h2, h3⟩ := h.at_
  have hcm := h1.none hc
  have hS := (readElement_safe h.inv hcm (h1.eof.trans he)).1
  have hb := h1.bytes
  simp only [View.curBytes, hc, Option.getD_none, List.nil_append] at hb
  simp only [hc, Option.getD_none, List.length_nil, Nat.add_zero] at h3
  unfold TS.readElement
  cases hts : t.toks with
  | nil =>
    rw [hts] at h2
    cases h2
    have hrb := readByte_spec true s
    have hp := h1.pos
    simp only at hp
    rcases hrb with ⟨a1, -⟩ | ⟨a1, sc, a2, a3⟩
    · omega
    rcases a3 with ⟨b, l, a3, a4⟩ | ⟨a3, a4, a5, a6⟩ | ⟨a3, a4, a5⟩ | ⟨a3, -⟩
    · rw [hb] at a3; cases a3
    · -- graceful
      simp only
      have hg : t.graceful = true := h.graceful ▸ a5
      rw [hg, if_pos rfl]
      have hre : readElement s = .ok .endOfDoc { advBy s 0 sc with eof := true, depth := 0 } := by
        unfold readElement; rw [a6]; rfl
      rw [hre] at hS ⊢
      have hst : Step s _ := hS.step
      refine ⟨rfl, ⟨⟨[], ⟨hst.inv, step_ben hst h1.ben, ?_, rfl, rfl, ?_, ?_, ?_, ?_, ?_⟩, .nil, ?_⟩, ?_⟩⟩
      · exact hp
      · show (advBy s 0 sc).rest = _; rw [advBy_rest, hb]; simp [View.curBytes, hc]
      · exact h1.within
      · simp [View.curBytes, hc]; simp at h3; omega
      · intro _; exact hcm
      · intro c hc'; rw [hc] at hc'; cases hc'
      · rw [hc]; exact h3
      · exact h.graceful.trans hg
    · simp only
      have hg : t.graceful = false := by
        cases hg : t.graceful with
        | false => rfl
        | true => exact absurd ⟨rfl, h.graceful.trans hg⟩ a4
      rw [hg, if_neg (by simp)]
      have hre : readElement s = .err (.io .unexpectedEof) (advBy s 0 sc) := by
        unfold readElement; rw [a5]
      rw [hre] at hS ⊢
      have hst : Step s _ := hS.step
      refine ⟨rfl, ⟨⟨[], ⟨hst.inv, step_ben hst h1.ben, hp, h1.depth, h1.eof, ?_, h1.within, h1.room, h1.none, ?_⟩, hts ▸ .nil, ?_⟩, h.graceful⟩⟩
      · rw [advBy_rest, hb]; simp [View.curBytes, hc]
      · intro c hc'; simp only at hc'; rw [hc] at hc'; cases hc'
      · rw [hc]; exact h3
    · exact absurd h1.ben a3
  | cons x ts =>
    rw [hts] at h2
    cases h2 with
    | @cons hh k _ enc bs' ht hl h2 =>
      obtain ⟨s', h4, h5⟩ := readElement_at (l := bs') h1 hc he ht rfl
      rw [h4] at hS ⊢
      refine ⟨rfl, ⟨⟨bs', ?_, h2, ?_⟩, hS.step.frame.graceful.trans h.graceful⟩⟩
      · have : (⟨t.pos, t.depth, t.eof, t.cur, enc ++ bs'⟩ : View).after k enc.length bs' =
          ⟨t.pos + hh, k.depthAfter t.depth, decide (k = .endDoc), contentOf k, bs'⟩ := by
          simp [View.after]; omega
        rw [this] at h5; exact h5
      · simp only; simp at h3; omega

theorem nextElement_abs {s : Stream} {t : TS} (h : Abs s t) : RA (nextElement s) (TS.nextElement t) := by
  obtain ⟨rest, h1, h2, h3⟩ := h.at_
  unfold nextElement nextElementImpl TS.nextElement
  by_cases he : t.eof = true
  · rw [if_pos (by rw [h1.eof]; exact he), if_pos he]; exact ⟨rfl, h⟩
  · rw [if_neg (by rw [h1.eof]; exact he), if_neg he]
    obtain ⟨s', h4, h5⟩ := commit_abs h
    rw [M.bind_ok h4]
    exact readElement_abs h5 rfl (by simpa [TS.flush] using he)

theorem TS.dropPads_nopad : ∀ (p : Nat) (l : List HTok), ∀ x, (dropPads p l).2.head? = some x → x.2 ≠ .padding := by
  intro p l
  induction l generalizing p with
  | nil => intro x h; simp [dropPads] at h
  | cons a l ih =>
    obtain ⟨hh, k⟩ := a
    intro x h
    unfold dropPads at h
    split at h
    · exact ih _ x h
    · rename_i hk; simp at h; subst h; exact hk

theorem skipPadLoop_abs : ∀ (fuel : Nat) (s : Stream) (t : TS), Abs s t → t.cur = none → t.eof = false →
    t.toks.length < fuel → RA (skipPadLoop fuel s) (TS.readElement t.unpad) := by
  intro fuel
  induction fuel with
  | zero => intro s t _ _ _ h; omega
  | succ fuel ih =>
    intro s t h hc he hf
    have hR := readElement_abs h hc he
    cases hts : t.toks with
    | nil =>
      have hu : t.unpad = t := by cases t; simp only at hts; subst hts; rfl
      rw [hu, skipPadLoop, M.bind_apply]
      cases hr : readElement s with
      | ok e s' =>
        rw [hr] at hR
        unfold TS.readElement at hR ⊢
        rw [hts] at hR ⊢
        simp only at hR ⊢
        by_cases hg : t.graceful = true
        · rw [if_pos hg] at hR ⊢
          obtain ⟨rfl, hR⟩ := hR
          exact ⟨rfl, hR⟩
        · rw [if_neg hg] at hR; exact hR.elim
      | err e s' => rw [hr] at hR; exact hR
    | cons a ts =>
      obtain ⟨hh, k⟩ := a
      rw [skipPadLoop, M.bind_apply]
      unfold TS.readElement at hR
      rw [hts] at hR
      simp only at hR
      cases hr : readElement s with
      | err e s' => rw [hr] at hR; exact hR.elim
      | ok e s' =>
        rw [hr] at hR
        obtain ⟨rfl, hR⟩ := hR
        simp only
        by_cases hk : k = .padding
        · subst hk
          rw [M.ite_apply, if_pos (by rfl)]
          have := ih s' _ hR rfl rfl (by rw [hts] at hf; simp at hf ⊢; omega)
          have e : (TS.unpad ⟨t.pos + hh, Tok.padding.depthAfter t.depth,
              decide (Tok.padding = .endDoc), t.graceful, contentOf .padding, ts⟩) = t.unpad := by
            cases t; simp only at hts hc he; subst hts hc he
            simp [TS.unpad, TS.dropPads, Tok.depthAfter, contentOf]
          rw [e] at this; exact this
        · have hne : elemOf t.pos t.depth k ≠ .padding := by cases k <;> simp [elemOf] at hk ⊢
          rw [M.ite_apply, if_neg hne]
          have hu : t.unpad = t := by
            cases t; simp only at hts; subst hts; simp [TS.unpad, TS.dropPads, hk]
          rw [hu]; unfold TS.readElement; rw [hts]
          exact ⟨rfl, hR⟩

theorem drain_abs {s : Stream} {t : TS} {c : List Byte} (h : Abs s t) (hc : t.cur = some c) (n : Nat) :
    RA (drain blobRead (min n c.length) s) (TS.take n c t) := by
  obtain ⟨rest, h1, h2, h3⟩ := h.at_
  obtain ⟨s', h4, h5⟩ := drain_at h1 (c := c) hc (min n c.length) (Nat.min_le_right _ _)
  have hS := drain_blob_safe (min n c.length) h.inv (h1.some c hc).1 (by
    have := (h1.some c hc).2.2; unfold blobRemaining; omega)
  rw [h4] at hS ⊢
  have ht : c.take (min n c.length) = c.take n := by
    rcases Nat.le_total n c.length with h | h
    · rw [Nat.min_eq_left h]
    · rw [Nat.min_eq_right h, List.take_of_length_le (Nat.le_refl _), List.take_of_length_le h]
  have hd : c.drop (min n c.length) = c.drop n := by
    rcases Nat.le_total n c.length with h | h
    · rw [Nat.min_eq_left h]
    · rw [Nat.min_eq_right h, List.drop_of_length_le (Nat.le_refl _), List.drop_of_length_le h]
  rw [hd] at h5
  refine ⟨ht, ⟨⟨rest, h5, h2, ?_⟩, hS.step.frame.graceful.trans h.graceful⟩⟩
  simp [hc] at h3 ⊢; omega

theorem Abs.liveCur {s : Stream} {t : TS} (h : Abs s t) : s.live = t.cur.isSome := by
  obtain ⟨rest, h1, -⟩ := h.at_
  cases hc : t.cur with
  | none => exact h.inv.notLive (h1.none hc)
  | some c => exact (h1.some c hc).2.1

theorem Abs.remaining {s : Stream} {t : TS} {c : List Byte} (h : Abs s t) (hc : t.cur = some c) :
    blobRemaining s = c.length := by
  obtain ⟨rest, h1, -⟩ := h.at_
  have := (h1.some c hc).2.2; unfold blobRemaining; omega

theorem nextField_abs {s : Stream} {t : TS} (h : Abs s t) : RA (nextField s) (TS.nextField t) := by
  obtain ⟨rest, h1, h2, h3⟩ := h.at_
  unfold nextField TS.nextField nextElementImpl
  by_cases he : t.eof = true
  · rw [M.bind_apply, if_pos (by rw [h1.eof]; exact he), if_pos he]; exact ⟨rfl, h⟩
  · rw [M.bind_apply, if_neg (by rw [h1.eof]; exact he), if_neg he]
    obtain ⟨s', h4, h5⟩ := commit_abs h
    rw [M.bind_ok h4]
    obtain ⟨rest', g1, g2, g3⟩ := h5.at_
    have hl := g2.length_le
    have hb := g1.bytes
    have hrl := rest_length s'
    rw [hb] at hrl
    simp [View.curBytes, TS.flush] at hrl
    have hP := skipPadLoop_abs (s'.inner.data.length - s'.inner.pos + 2) s' _ h5 rfl (by simpa [TS.flush] using he)
      (by simp [TS.flush] at hl ⊢; omega)
    have hnp := TS.dropPads_nopad t.flush.pos t.flush.toks
    rw [if_pos rfl, M.bind_ok (M.get_apply s')]
    cases hr : skipPadLoop (s'.inner.data.length - s'.inner.pos + 2) s' with
    | err e s2 =>
      rw [hr] at hP
      cases hr' : TS.readElement t.flush.unpad with
      | ok e' t2 => rw [hr'] at hP; exact hP.elim
      | err e' t2 => rw [hr'] at hP; exact hP
    | ok e s2 =>
      rw [hr] at hP
      cases hr' : TS.readElement t.flush.unpad with
      | err e' t2 => rw [hr'] at hP; exact hP.elim
      | ok e' t2 =>
        rw [hr'] at hP
        obtain ⟨rfl, hP⟩ := hP
        cases e with
        | field f => exact ⟨rfl, hP⟩
        | endOfStruct => exact ⟨rfl, hP⟩
        | endOfDoc => exact ⟨rfl, hP⟩
        | padding =>
          exfalso
          unfold TS.readElement at hr'
          split at hr'
          · split at hr' <;> simp at hr'
          · rename_i hh k ts htk
            have := hnp (hh, k) (by
              have : t.flush.unpad.toks = (TS.dropPads t.flush.pos t.flush.toks).2 := rfl
              rw [← this, htk]; rfl)
            simp only [Res.ok.injEq] at hr'
            cases k <;> simp [elemOf] at hr' this
        | exception len =>
          simp only
          have hcur : ∃ c, t2.cur = some c := by
            unfold TS.readElement at hr'
            split at hr'
            · split at hr' <;> simp at hr'
            · rename_i hh k ts htk
              simp only [Res.ok.injEq] at hr'
              obtain ⟨a1, a2⟩ := hr'
              cases k <;> simp [elemOf] at a1
              exact ⟨_, by rw [← a2]; rfl⟩
          obtain ⟨c, hc⟩ := hcur
          have hD := drain_abs hP hc 256
          unfold TS.onBlob
          rw [hc]; simp only
          rw [M.bind_apply]
          unfold readOrTrunc
          rw [hP.remaining hc]
          cases hd : drain blobRead (min 256 c.length) s2 with
          | ok m s3 =>
            rw [hd] at hD
            simp only [TS.take] at hD ⊢
            obtain ⟨rfl, hD⟩ := hD
            exact ⟨rfl, hD⟩
          | err e s3 => rw [hd] at hD; simp only [TS.take] at hD; exact hD.elim

theorem TS.nextElement_toks {t t' : TS} {e : Element} (h : TS.nextElement t = .ok e t') :
    t'.toks.length + 1 = t.toks.length ∨ t'.depth = 0 ∨ t' = t := by
  unfold TS.nextElement at h
  split at h
  · cases h; exact .inr (.inr rfl)
  · unfold TS.readElement at h
    split at h
    · split at h
      · cases h; exact .inr (.inl rfl)
      · cases h
    · rename_i hh k ts htk
      cases h
      left; have : t.toks = (hh, k) :: ts := htk
      simp [this]

theorem skipUpLoop_abs (d : Nat) : ∀ (fuel fuel' : Nat) (s : Stream) (t : TS), Abs s t → t.toks.length + 1 < fuel →
    t.toks.length + 1 < fuel' → RA (skipUpLoop d fuel s) (TS.skipUpLoop d fuel' t) := by
  intro fuel
  induction fuel with
  | zero => intro _ s t _ h; omega
  | succ fuel ih =>
    intro fuel' s t h hf hf'
    cases fuel' with
    | zero => omega
    | succ fuel' =>
      obtain ⟨rest, h1, h2, h3⟩ := h.at_
      unfold skipUpLoop TS.skipUpLoop
      have hd : s.depth = t.depth := h1.depth
      rw [hd]
      by_cases hg : t.depth > d
      · rw [if_pos hg, if_pos hg]
        have hN := nextElement_abs h
        have heof : t.eof = false := by
          cases he : t.eof with
          | false => rfl
          | true => have := h.inv.eofDepth (h1.eof.trans he); omega
        rw [M.bind_apply, M.bind_apply]
        cases hn : nextElement s with
        | err e s' =>
          rw [hn] at hN
          cases hn' : TS.nextElement t with
          | ok e' t' => rw [hn'] at hN; exact hN.elim
          | err e' t' => rw [hn'] at hN; exact hN
        | ok e s' =>
          rw [hn] at hN
          cases hn' : TS.nextElement t with
          | err e' t' => rw [hn'] at hN; exact hN.elim
          | ok e' t' =>
            rw [hn'] at hN
            obtain ⟨rfl, hN⟩ := hN
            simp only
            rcases TS.nextElement_toks hn' with hl | hl | hl
            · exact ih fuel' s' t' hN (by omega) (by omega)
            · -- the document ended
              cases fuel with
              | zero => omega
              | succ fuel =>
                cases fuel' with
                | zero => omega
                | succ fuel' =>
                  obtain ⟨rest', g1, -⟩ := hN.at_
                  have hd' : s'.depth = t'.depth := g1.depth
                  unfold skipUpLoop TS.skipUpLoop
                  rw [if_neg (by omega), if_neg (by omega)]
                  exact ⟨rfl, hN⟩
            · subst hl
              -- impossible: an element was read
              exfalso
              unfold TS.nextElement at hn'
              rw [heof, if_neg (by simp)] at hn'
              unfold TS.readElement at hn'
              split at hn'
              · split at hn'
                · simp only [Res.ok.injEq] at hn'
                  have := hn'.2
                  have := congrArg TS.eof this
                  simp [heof] at this
                · cases hn'
              · rename_i hh k ts htk
                simp only [Res.ok.injEq] at hn'
                have := congrArg (fun t => t.toks.length) hn'.2
                have e2 : t'.toks = (hh, k) :: ts := htk
                simp [e2] at this
      · rw [if_neg hg, if_neg hg]; exact ⟨rfl, h⟩

theorem exec_abs {β : Type} (o : Op β) (ho : o.whole) {s : Stream} {t : TS} (h : Abs s t) :
    RA (o.exec s) (TS.exec o t) := by
  obtain ⟨rest, h1, h2, h3⟩ := h.at_
  have hlen : t.toks.length + 1 < s.inner.data.length - s.inner.pos + 2 := by
    have := h2.length_le
    have hb := h1.bytes
    have hrl := rest_length s
    rw [hb] at hrl
    simp at hrl; omega
  have hlive : ∀ {α : Type} (m : M Err Stream α) (f : List Byte → M Err TS α),
      (∀ c, t.cur = some c → RA (m s) (f c t)) → RA (onLiveBlob m s) (TS.onBlob f t) := by
    intro α m f hm
    unfold onLiveBlob TS.onBlob
    rw [h.liveCur]
    cases hc : t.cur with
    | none => exact ⟨rfl, h⟩
    | some c => exact hm c hc
  cases o with
  | nextField => exact nextField_abs h
  | nextElement => exact nextElement_abs h
  | skipUp d => exact skipUpLoop_abs d _ _ s t h hlen (by omega)
  | commit =>
    obtain ⟨s', h4, h5⟩ := commit_abs h
    simp only [Op.exec]; rw [h4]; exact ⟨rfl, h5⟩
  | clearEof =>
    refine ⟨rfl, ⟨⟨rest, ⟨(clearEof_safe h.inv).step.inv, h1.ben, h1.pos, h1.depth, rfl, h1.bytes, h1.within, h1.room, h1.none, h1.some⟩, h2, h3⟩, h.graceful⟩⟩
  | eof => exact ⟨h1.eof, h⟩
  | pos => exact ⟨h1.pos, h⟩
  | structDepth => exact ⟨h1.depth, h⟩
  | readFully max =>
    show RA (onLiveBlob (readFully max) s) (TS.onBlob (fun c t =>
      if c.length > max then .err (.largeBlob max c.length) t else TS.take c.length c t) t)
    refine hlive _ _ fun c hc => ?_
    unfold readFully
    rw [h.remaining hc]
    by_cases hm : c.length > max
    · rw [if_pos hm, if_pos hm]; exact ⟨rfl, h⟩
    · rw [if_neg hm, if_neg hm]
      have := drain_abs h hc c.length
      rwa [Nat.min_self] at this
  | readOrTrunc max =>
    refine hlive _ _ fun c hc => ?_
    unfold readOrTrunc
    rw [h.remaining hc]
    exact drain_abs h hc max
  | read want => exact ho.elim
  | slice =>
    refine hlive _ _ fun c hc => ?_
    rw [slice_at h1 hc]; exact ⟨rfl, h⟩
  | remaining =>
    refine hlive _ _ fun c hc => ?_
    exact ⟨h.remaining hc, h⟩

theorem pull_abs (fields : Bool) {s : Stream} {t : TS} (h : Abs s t) : RA (pull fields s) (TS.pull fields t) := by
  unfold pull TS.pull
  cases fields with
  | true =>
    have := nextField_abs h
    simp only [if_true]
    cases hn : nextField s with
    | err e s' =>
      cases hn' : TS.nextField t with
      | ok e' t' => rw [hn, hn'] at this; exact this.elim
      | err e' t' => rw [hn, hn'] at this; exact this
    | ok o s' =>
      cases hn' : TS.nextField t with
      | err e' t' => rw [hn, hn'] at this; exact this.elim
      | ok o' t' =>
        rw [hn, hn'] at this
        obtain ⟨rfl, h2⟩ := this
        cases o with
        | none => exact ⟨rfl, h2⟩
        | some f => exact ⟨rfl, h2⟩
  | false =>
    have := nextElement_abs h
    simp only [Bool.false_eq_true, if_false]
    cases hn : nextElement s with
    | err e s' =>
      cases hn' : TS.nextElement t with
      | ok e' t' => rw [hn, hn'] at this; exact this.elim
      | err e' t' => rw [hn, hn'] at this; exact this
    | ok o s' =>
      cases hn' : TS.nextElement t with
      | err e' t' => rw [hn, hn'] at this; exact this.elim
      | ok o' t' =>
        rw [hn, hn'] at this
        obtain ⟨rfl, h2⟩ := this
        cases o <;> exact ⟨rfl, h2⟩

/-- Both runs of a client end the same way, in related states. -/
def RPA {ε U α : Type} : Res (Stop ε) (PSt U) α → Res (Stop ε) (TS × U) α → Prop
  | .ok a st, .ok b st' => a = b ∧ Abs st.1 st'.1 ∧ st.2 = st'.2
  | .err e st, .err e' st' => e = e' ∧ Abs st.1 st'.1 ∧ st.2 = st'.2
  | _, _ => False

theorem TS.pull_some {fields : Bool} {t t' : TS} {e : Element} (h : TS.pull fields t = .ok (some e) t') :
    t'.toks.length < t.toks.length := by
  have dp : ∀ (p : Nat) (l : List HTok), (TS.dropPads p l).2.length ≤ l.length := by
    intro p l
    induction l generalizing p with
    | nil => simp [TS.dropPads]
    | cons a l ih =>
      obtain ⟨hh, k⟩ := a
      unfold TS.dropPads
      split
      · have := ih (p + hh); simp; omega
      · simp
  have re : ∀ {t t' : TS} {e : Element}, TS.readElement t = .ok e t' → e ≠ .endOfDoc → t'.toks.length < t.toks.length := by
    intro t t' e h hne
    unfold TS.readElement at h
    split at h
    · split at h
      · cases h; exact absurd rfl hne
      · cases h
    · rename_i hh k ts htk
      cases h; simp [htk]
  unfold TS.pull at h
  cases fields with
  | true =>
    simp only [if_true] at h
    split at h
    · rename_i f t2 hn
      cases h
      unfold TS.nextField at hn
      split at hn
      · cases hn
      · split at hn
        · cases hn
        · rename_i f' t3 hr
          cases hn
          have := re hr (by simp)
          have := dp t.flush.pos t.flush.toks
          simp only [TS.unpad] at *
          simp only [TS.flush] at *
          omega
        · split at hn <;> cases hn
        · cases hn
    · cases h
    · cases h
  | false =>
    simp only [Bool.false_eq_true, if_false] at h
    split at h
    · cases h
    · rename_i e' t2 hne hn
      cases h
      unfold TS.nextElement at hn
      split at hn
      · cases hn; exact absurd rfl hne
      · have := re hn (by simpa using hne)
        exact this
    · cases h

theorem runLoop_abs {ε U β α : Type} (fields : Bool) (body : β → Element → M (Stop ε) (PSt U) (β ⊕ α))
    (onErr : Err → M (Stop ε) (PSt U) α) (onEnd : β → M (Stop ε) (PSt U) α)
    (body' : β → Element → M (Stop ε) (TS × U) (β ⊕ α))
    (onErr' : Err → M (Stop ε) (TS × U) α) (onEnd' : β → M (Stop ε) (TS × U) α)
    (hb : ∀ b e s t u, Abs s t → RPA (body b e (s, u)) (body' b e (t, u)))
    (hE : ∀ e s t u, Abs s t → RPA (onErr e (s, u)) (onErr' e (t, u)))
    (hN : ∀ b s t u, Abs s t → RPA (onEnd b (s, u)) (onEnd' b (t, u)))
    (hmono : ∀ b e t u r t' u', body' b e (t, u) = .ok r (t', u') → t'.toks.length ≤ t.toks.length) :
    ∀ (fuel fuel' : Nat) (b : β) (s : Stream) (t : TS) (u : U), Abs s t → t.toks.length < fuel → t.toks.length < fuel' →
    RPA (runLoop fields body onErr onEnd fuel b (s, u)) (TS.runLoop fields body' onErr' onEnd' fuel' b (t, u)) := by
  intro fuel
  induction fuel with
  | zero => intro _ _ _ _ _ _ h; omega
  | succ fuel ih =>
    intro fuel' b s t u h hf hf'
    cases fuel' with
    | zero => omega
    | succ fuel' =>
      unfold runLoop TS.runLoop
      have hP := pull_abs fields h
      simp only
      cases hp : pull fields s with
      | err e s' =>
        rw [hp] at hP
        cases hp' : TS.pull fields t with
        | ok o t' => rw [hp'] at hP; exact hP.elim
        | err e' t' =>
          rw [hp'] at hP
          obtain ⟨rfl, hP⟩ := hP
          simp only
          by_cases ha : e.abnormal = true
          · rw [if_pos ha, if_pos ha]; exact ⟨rfl, hP, rfl⟩
          · rw [if_neg ha, if_neg ha]; exact hE _ _ _ _ hP
      | ok o s' =>
        rw [hp] at hP
        cases hp' : TS.pull fields t with
        | err e' t' => rw [hp'] at hP; exact hP.elim
        | ok o' t' =>
          rw [hp'] at hP
          obtain ⟨rfl, hP⟩ := hP
          cases o with
          | none => exact hN _ _ _ _ hP
          | some el =>
            simp only
            have hB := hb b el s' t' u hP
            have hlt := TS.pull_some hp'
            cases hr : body b el (s', u) with
            | err e st =>
              rw [hr] at hB
              cases hr' : body' b el (t', u) with
              | ok o t' => rw [hr'] at hB; exact hB.elim
              | err e' t' => rw [hr'] at hB; exact hB
            | ok r st =>
              rw [hr] at hB
              cases hr' : body' b el (t', u) with
              | err e' t' => rw [hr'] at hB; exact hB.elim
              | ok r' st' =>
                rw [hr'] at hB
                obtain ⟨rfl, hA, hu⟩ := hB
                obtain ⟨s2, u2⟩ := st
                obtain ⟨t2, u2'⟩ := st'
                simp only at hA hu
                subst hu
                cases r with
                | inr a => exact ⟨rfl, hA, rfl⟩
                | inl b' =>
                  have := hmono _ _ _ _ _ _ _ hr'
                  exact ih fuel' b' s2 t2 u2 hA (by omega) (by omega)

theorem TS.exec_mono {β : Type} (o : Op β) (t : TS) : (TS.exec o t).state.toks.length ≤ t.toks.length := by
  have dp : ∀ (p : Nat) (l : List HTok), (TS.dropPads p l).2.length ≤ l.length := by
    intro p l
    induction l generalizing p with
    | nil => simp [TS.dropPads]
    | cons a l ih =>
      obtain ⟨hh, k⟩ := a
      unfold TS.dropPads
      split
      · have := ih (p + hh); simp; omega
      · simp
  have re : ∀ t : TS, (TS.readElement t).state.toks.length ≤ t.toks.length := by
    intro t
    unfold TS.readElement
    split
    · rename_i h; split <;> simp [h]
    · rename_i h; simp [h]
  have ne : ∀ t : TS, (TS.nextElement t).state.toks.length ≤ t.toks.length := by
    intro t
    unfold TS.nextElement
    split
    · exact Nat.le_refl _
    · exact re _
  have tk : ∀ n c (t : TS), (TS.take n c t).state.toks.length ≤ t.toks.length := fun n c t => Nat.le_refl _
  have ob : ∀ {α : Type} (f : List Byte → M Err TS α) (t : TS), (∀ c, (f c t).state.toks.length ≤ t.toks.length) →
      (TS.onBlob f t).state.toks.length ≤ t.toks.length := by
    intro α f t h
    unfold TS.onBlob
    split
    · exact h _
    · exact Nat.le_refl _
  cases o with
  | nextField =>
    show (TS.nextField t).state.toks.length ≤ _
    unfold TS.nextField
    split
    · exact Nat.le_refl _
    · have h1 := re t.flush.unpad
      have h2 := dp t.flush.pos t.flush.toks
      have h3 : t.flush.unpad.toks.length ≤ t.toks.length := h2
      split <;> rename_i hr <;> rw [hr] at h1 <;> simp only [Res.state_ok, Res.state_err] at h1
      · simp; omega
      · simp; omega
      · have h4 := ob (TS.take 256) (by assumption) (fun c => tk _ _ _)
        split <;> rename_i hq <;> rw [hq] at h4 <;> simp only [Res.state_ok, Res.state_err] at h4 ⊢ <;> omega
      · simp; omega
  | nextElement => exact ne t
  | skipUp d =>
    show (TS.skipUpLoop d (t.toks.length + 2) t).state.toks.length ≤ _
    generalize t.toks.length + 2 = fuel
    induction fuel generalizing t with
    | zero => exact Nat.le_refl _
    | succ fuel ih =>
      unfold TS.skipUpLoop
      split
      · rw [M.bind_apply]
        have := ne t
        cases hn : TS.nextElement t with
        | ok e t' => rw [hn] at this; exact Nat.le_trans (ih t') this
        | err e t' => rw [hn] at this; exact this
      · exact Nat.le_refl _
  | commit => exact Nat.le_refl _
  | clearEof => exact Nat.le_refl _
  | eof => exact Nat.le_refl _
  | pos => exact Nat.le_refl _
  | structDepth => exact Nat.le_refl _
  | readFully max =>
    show (TS.onBlob (fun c t =>
      if c.length > max then .err (.largeBlob max c.length) t else TS.take c.length c t) t).state.toks.length ≤ _
    exact ob _ _ fun c => by split <;> exact Nat.le_refl _
  | readOrTrunc max => exact ob _ _ fun c => tk _ _ _
  | read want => exact ob _ _ fun c => tk _ _ _
  | slice => exact ob _ _ fun c => Nat.le_refl _
  | remaining => exact ob _ _ fun c => Nat.le_refl _


theorem TS.pull_mono (fields : Bool) (t : TS) : (TS.pull fields t).state.toks.length ≤ t.toks.length := by
  unfold TS.pull
  cases fields with
  | true =>
    have := TS.exec_mono .nextField t
    simp only [TS.exec] at this
    simp only [if_true]
    split <;> rename_i h <;> rw [h] at this <;> exact this
  | false =>
    have := TS.exec_mono .nextElement t
    simp only [TS.exec] at this
    simp only [Bool.false_eq_true, if_false]
    split <;> rename_i h <;> rw [h] at this <;> exact this

theorem TS.runLoop_mono {ε U β α : Type} (fields : Bool) (body : β → Element → M (Stop ε) (TS × U) (β ⊕ α))
    (onErr : Err → M (Stop ε) (TS × U) α) (onEnd : β → M (Stop ε) (TS × U) α)
    (hb : ∀ b e st, (body b e st).state.1.toks.length ≤ st.1.toks.length)
    (hE : ∀ e st, (onErr e st).state.1.toks.length ≤ st.1.toks.length)
    (hN : ∀ b st, (onEnd b st).state.1.toks.length ≤ st.1.toks.length) :
    ∀ (fuel : Nat) (b : β) (st : TS × U), (TS.runLoop fields body onErr onEnd fuel b st).state.1.toks.length ≤ st.1.toks.length := by
  intro fuel
  induction fuel with
  | zero => intro b st; exact Nat.le_refl _
  | succ fuel ih =>
    intro b st
    unfold TS.runLoop
    have hp := TS.pull_mono fields st.1
    split
    · rename_i e s h
      rw [h] at hp
      split
      · exact hp
      · exact Nat.le_trans (hE e _) hp
    · rename_i s h
      rw [h] at hp
      exact Nat.le_trans (hN b _) hp
    · rename_i el s h
      rw [h] at hp
      have h2 := hb b el (s, st.2)
      split <;> rename_i h3 <;> rw [h3] at h2
      · exact Nat.le_trans h2 hp
      · exact Nat.le_trans (ih _ _) (Nat.le_trans h2 hp)
      · exact Nat.le_trans h2 hp

theorem Prog.abs_mono {ε U : Type} : ∀ {α : Type} (p : Prog ε U α) (st : TS × U),
    (p.abs st).state.1.toks.length ≤ st.1.toks.length := by
  intro α p
  induction p with
  | ret a => intro st; exact Nat.le_refl _
  | fail e => intro st; exact Nat.le_refl _
  | op o =>
    intro st
    have := TS.exec_mono o st.1
    simp only [Prog.abs]
    cases h : TS.exec o st.1 with
    | ok b s => rw [h] at this; exact this
    | err e s => rw [h] at this; simp only; split <;> exact this
  | call o f =>
    intro st
    have := TS.exec_mono o st.1
    simp only [Prog.abs]
    cases h : TS.exec o st.1 with
    | ok b s => rw [h] at this; exact this
    | err e s => rw [h] at this; simp only; split <;> exact this
  | getU => intro st; exact Nat.le_refl _
  | setU u => intro st; exact Nat.le_refl _
  | bind p f ihp ihf =>
    intro st
    have := ihp st
    simp only [Prog.abs]
    cases h : p.abs st with
    | ok b s => rw [h] at this; exact Nat.le_trans (ihf b s) this
    | err e s => rw [h] at this; exact this
  | attempt p ih =>
    intro st
    have := ih st
    simp only [Prog.abs]
    cases h : p.abs st with
    | ok b s => rw [h] at this; exact this
    | err e s => rw [h] at this; cases e <;> exact this
  | loop fields init body onErr onEnd ih1 ih2 ih3 =>
    intro st
    simp only [Prog.abs]
    exact TS.runLoop_mono fields _ _ _ (fun b e st => ih1 b e st) (fun e st => ih2 e st) (fun b st => ih3 b st) _ _ _

/-- **Refinement.** A client program run on a stream over any spelling of the elements behaves as on
the abstract stream. -/
theorem Prog.run_abs {ε U : Type} : ∀ {α : Type} (p : Prog ε U α), p.OpsAll Op.whole →
    ∀ (s : Stream) (t : TS) (u : U), Abs s t → RPA (p.run (s, u)) (p.abs (t, u)) := by
  intro α p
  induction p with
  | ret a => intro _ s t u h; exact ⟨rfl, h, rfl⟩
  | fail e => intro _ s t u h; exact ⟨rfl, h, rfl⟩
  | op o =>
    intro ho s t u h
    have := exec_abs o ho h
    simp only [Prog.run, Prog.abs]
    cases hr : o.exec s with
    | ok b s' =>
      cases hr' : TS.exec o t with
      | ok b' t' => rw [hr, hr'] at this; obtain ⟨rfl, h2⟩ := this; exact ⟨rfl, h2, rfl⟩
      | err e' t' => rw [hr, hr'] at this; exact this.elim
    | err e s' =>
      cases hr' : TS.exec o t with
      | ok b' t' => rw [hr, hr'] at this; exact this.elim
      | err e' t' =>
        rw [hr, hr'] at this; obtain ⟨rfl, h2⟩ := this
        simp only
        split <;> exact ⟨rfl, h2, rfl⟩
  | call o f =>
    intro ho s t u h
    have := exec_abs o ho h
    simp only [Prog.run, Prog.abs]
    cases hr : o.exec s with
    | ok b s' =>
      cases hr' : TS.exec o t with
      | ok b' t' => rw [hr, hr'] at this; obtain ⟨rfl, h2⟩ := this; exact ⟨rfl, h2, rfl⟩
      | err e' t' => rw [hr, hr'] at this; exact this.elim
    | err e s' =>
      cases hr' : TS.exec o t with
      | ok b' t' => rw [hr, hr'] at this; exact this.elim
      | err e' t' =>
        rw [hr, hr'] at this; obtain ⟨rfl, h2⟩ := this
        simp only
        split <;> exact ⟨rfl, h2, rfl⟩
  | getU => intro _ s t u h; exact ⟨rfl, h, rfl⟩
  | setU u' => intro _ s t u h; exact ⟨rfl, h, rfl⟩
  | bind p f ihp ihf =>
    intro ho s t u h
    have := ihp ho.1 s t u h
    simp only [Prog.run, Prog.abs]
    cases hr : p.run (s, u) with
    | ok b st =>
      cases hr' : p.abs (t, u) with
      | ok b' st' =>
        rw [hr, hr'] at this
        obtain ⟨s2, u2⟩ := st
        obtain ⟨t2, u2'⟩ := st'
        obtain ⟨rfl, h2, h3⟩ := this
        simp only at h2 h3; subst h3
        exact ihf b (ho.2 b) _ _ _ h2
      | err e' t' => rw [hr, hr'] at this; exact this.elim
    | err e s' =>
      cases hr' : p.abs (t, u) with
      | ok b' t' => rw [hr, hr'] at this; exact this.elim
      | err e' t' => rw [hr, hr'] at this; exact this
  | attempt p ih =>
    intro ho s t u h
    have := ih ho s t u h
    simp only [Prog.run, Prog.abs]
    cases hr : p.run (s, u) with
    | ok b st =>
      cases hr' : p.abs (t, u) with
      | ok b' st' => rw [hr, hr'] at this; obtain ⟨rfl, h2⟩ := this; exact ⟨rfl, h2⟩
      | err e' t' => rw [hr, hr'] at this; exact this.elim
    | err e s' =>
      cases hr' : p.abs (t, u) with
      | ok b' t' => rw [hr, hr'] at this; exact this.elim
      | err e' t' =>
        rw [hr, hr'] at this; obtain ⟨rfl, h2⟩ := this
        cases e <;> exact ⟨rfl, h2⟩
  | loop fields init body onErr onEnd ih1 ih2 ih3 =>
    intro ho s t u h
    obtain ⟨o1, o2, o3⟩ := ho
    simp only [Prog.run, Prog.abs]
    obtain ⟨rest, h1, h2, h3⟩ := h.at_
    have hlen : t.toks.length + 1 < s.inner.data.length - s.inner.pos + 2 := by
      have := h2.length_le
      have hb := h1.bytes
      have hrl := rest_length s
      rw [hb] at hrl
      simp at hrl; omega
    refine runLoop_abs fields _ _ _ _ _ _ (fun b e s t u h => ih1 b e (o1 b e) s t u h) (fun e s t u h => ih2 e (o2 e) s t u h)
      (fun b s t u h => ih3 b (o3 b) s t u h) ?_ _ _ _ _ _ _ h (by omega) (by omega)
    intro b e t u r t' u' hr
    have := Prog.abs_mono (body b e) (t, u)
    rw [hr] at this; exact this

/-- A fresh stream over spelled elements represents the corresponding abstract stream. -/
theorem Abs.ofFresh {s : Stream} {hs : List HTok} (h1 : s.pos + s.rest.length < U64MAX) (h2 : s.eof = false)
    (h3 : s.commit = none) (h4 : s.live = false) (hb : Benign s.inner.sched) (hw : s.inner.pos ≤ s.inner.data.length)
    (he : EncH hs s.rest) : Abs s ⟨s.pos, s.depth, false, s.graceful, none, hs⟩ := by
  refine ⟨⟨s.rest, ⟨⟨by omega, .inl h3, fun h => by simp [h2] at h, fun h => by simp [h2] at h, fun h => by simp [h4] at h⟩,
    hb, rfl, rfl, h2, rfl, hw, ?_, fun _ => h3, fun c h => by cases h⟩, he, by simpa using h1⟩, rfl⟩
  simp [View.curBytes]; omega

end Fourleaf
