import Verif.PropsWrite
import Verif.LossyLemmas
import Verif.ConvLemmas

/-! # C69: exception messages arrive as text -/

namespace Fourleaf.Props

open Fourleaf.Spec

/-- The specification gives every sequence of bytes exactly one text. -/
theorem c69_one_text (bs : List Byte) : ∃ t, LossyText bs t ∧ ∀ u, LossyText bs u → u = t :=
  ⟨lossy bs, lossy_spec bs, fun _ h => (lossy_spec bs).unique h⟩

theorem lossyText_intact {bs : List Byte} {t : List Char} (h : LossyText bs t) : '\uFFFD' ∉ t → bs = encText t := by
  induction h with
  | nil => intro _; rfl
  | char c _ ih => intro hx; rw [encText_cons, ← ih (fun hm => hx (List.mem_cons_of_mem _ hm))]
  | bad p _ _ _ _ _ _ => intro hx; exact absurd List.mem_cons_self hx

theorem lossyText_length {bs : List Byte} {t : List Char} (h : LossyText bs t) : t.length ≤ bs.length := by
  induction h with
  | nil => exact Nat.le_refl _
  | char c _ ih =>
    have := List.length_pos_iff.2 (enc_ne_nil c)
    simp only [List.length_cons, List.length_append]; omega
  | bad p hp _ _ _ _ ih =>
    have := List.length_pos_iff.2 hp
    simp only [List.length_cons, List.length_append]; omega

theorem exception_ready {s : Stream} {p d : Nat} {msg enc l : List Byte} (h : Ready s p d false (enc ++ l))
    (ht : EncTok (.exception msg) enc) :
    ∃ s' text, nextField s = .err (.exception text) s' ∧ LossyText (msg.take 256) text ∧ Ready s' (p + enc.length) d false l := by
  obtain ⟨v, g1, g2, g3, g4, g5⟩ := h
  obtain ⟨s2, h3, h4⟩ := nextField_exception_at (n := 0) (l := l) g1 g2 ht (by simpa using g5)
  refine ⟨s2, _, h3, lossy_spec _, _, h4, by simp [View.after], ?_, ?_, rfl⟩
  · have := content_le ht
    simp only [View.flush, View.curBytes, View.after, contentOf, Option.getD_some, List.length_drop] at this g3 ⊢
    rw [← g3]
    omega
  · simp only [View.after, Tok.depthAfter]; exact g4

/-- **C69** (what is received) An exception with any bytes as its message, after any elements: `next_field` fails with the text the first 256 bytes of the message stand for.
That text has at most 256 characters, and if U+FFFD does not occur in it, its UTF-8 encoding is exactly those bytes. -/
theorem c69_received (r : Stream) (ts : List Tok) (pre msg enc l : List Byte) (hr : Over r (pre ++ (enc ++ l)))
    (hpre : EncToks ts pre) (ht : EncTok (.exception msg) enc) :
    ∃ r1 r2 text, readToks ts.length r = .ok ts r1 ∧ nextField r1 = .err (.exception text) r2 ∧
      LossyText (msg.take 256) text ∧ text.length ≤ 256 ∧ ('\uFFFD' ∉ text → msg.take 256 = encText text) ∧
      YieldsNext r2 (r.pos + pre.length + enc.length) r2.depth l := by
  obtain ⟨r1, h1, h2⟩ := readToks_ready ts pre hpre r _ _ _ hr.ready
  obtain ⟨r2, text, h3, h4, h5⟩ := exception_ready h2 ht
  refine ⟨r1, r2, text, h1, h3, h4, ?_, lossyText_intact h4, by rw [h5.depth]; exact h5.yields⟩
  have := lossyText_length h4
  simp at this; omega

/-- **C69** (what was sent) A text is sent as the message of an exception, between any other elements. The reader gets these elements and, in the place of
the exception, an error with the text: all of it if its UTF-8 encoding has at most 256 bytes, else the characters that lie completely within the
first 256 bytes, followed by one U+FFFD if these do not end at the end of a character. -/
theorem c69_sent (cs cs' : List WCall) (t : List Char) (hcs : ∀ c ∈ cs ++ cs', ∀ t ∈ c.toks, t.Valid) (w : Stream) (hw : Sink w) (hb : Benign w.inner.sched)
    (hroom : w.pos + (canonToks (callToks (cs ++ .exceptionData (encText t) :: cs'))).length + 11 ≤ U64MAX) :
    ∃ w', runCalls (cs ++ .exceptionData (encText t) :: cs') w = .ok () w' ∧ ∀ r : Stream, Over r (w'.inner.data.drop w.inner.pos) →
      ∃ r1 r2 r3 text, readToks (callToks cs).length r = .ok (callToks cs) r1 ∧ nextField r1 = .err (.exception text) r2 ∧
        readToks (callToks cs').length r2 = .ok (callToks cs') r3 ∧
        ((encText t).length ≤ 256 → text = t) ∧
        (256 < (encText t).length → ∃ a b, t = a ++ b ∧ (encText a).length ≤ 256 ∧ (∀ c, b.head? = some c → 256 < (encText (a ++ [c])).length) ∧
          text = a ++ if (encText a).length = 256 then [] else ['\uFFFD']) := by
  have hx : (WCall.exceptionData (encText t)).toks = [.exception (encText t)] := rfl
  have hlen : (encText t).length < 2 ^ 64 := by
    have h1 : (encText t).length ≤ (canonToks (callToks (cs ++ .exceptionData (encText t) :: cs'))).length := by
      have e : callToks (cs ++ .exceptionData (encText t) :: cs') = callToks cs ++ .exception (encText t) :: callToks cs' := by
        simp [callToks, WCall.toks]
      rw [e]
      simp only [canonToks, List.flatMap_append, List.flatMap_cons, List.length_append, canonTok, List.length_cons]
      omega
    unfold U64MAX at hroom
    omega
  have hall : ∀ c ∈ cs ++ .exceptionData (encText t) :: cs', ∀ t ∈ c.toks, t.Valid := by
    intro c hc x hxm
    simp only [List.mem_append, List.mem_cons] at hc
    rcases hc with hc | rfl | hc
    · exact hcs c (List.mem_append_left _ hc) x hxm
    · rw [hx, List.mem_singleton] at hxm
      subst hxm
      exact hlen
    · exact hcs c (List.mem_append_right _ hc) x hxm
  obtain ⟨w', h1, h2, -, -, -⟩ := c09_documented_format _ hall w hw hb hroom
  refine ⟨w', h1, fun r hr => ?_⟩
  have hd : w'.inner.data.drop w.inner.pos = canonToks (callToks (cs ++ .exceptionData (encText t) :: cs')) ++
      w.inner.data.drop (w.inner.pos + (canonToks (callToks (cs ++ .exceptionData (encText t) :: cs'))).length) := by
    rw [h2, written, List.append_assoc, List.drop_append, List.drop_of_length_le (by simp; omega)]
    simp [hw.within]
  generalize w.inner.data.drop (w.inner.pos + (canonToks (callToks (cs ++ .exceptionData (encText t) :: cs'))).length) = l at hd
  have e : canonToks (callToks (cs ++ .exceptionData (encText t) :: cs')) =
      canonToks (callToks cs) ++ (canonTok (.exception (encText t)) ++ canonToks (callToks cs')) := by
    simp [callToks, canonToks, WCall.toks]
  rw [hd, e] at hr
  have valid : ∀ ds : List WCall, (∀ c ∈ ds, c ∈ cs ++ cs') → ∀ t ∈ callToks ds, t.Valid := by
    intro ds hds t ht
    simp only [callToks, List.mem_flatMap] at ht
    obtain ⟨c, hc, ht⟩ := ht
    exact hcs c (hds c hc) t ht
  have hr' := hr.ready
  simp only [List.append_assoc] at hr'
  obtain ⟨r1, g1, g2⟩ := readToks_ready _ _ (canonToks_enc (valid cs fun c hc => List.mem_append_left _ hc)) r _ _ _ hr'
  obtain ⟨r2, text, g3, g4, g5⟩ := exception_ready g2 (canonTok_enc (t := .exception (encText t)) hlen)
  obtain ⟨r3, g6, -⟩ := readToks_ready _ _ (canonToks_enc (valid cs' fun c hc => List.mem_append_right _ hc)) r2 _ _ _ g5
  refine ⟨r1, r2, r3, text, g1, g3, g6, ?_, ?_⟩
  · intro hle
    rw [List.take_of_length_le hle] at g4
    rw [← lossy_eq g4, lossy_encText]
  · intro hlt
    obtain ⟨a, b, k1, k2, k3, k4⟩ := lossyText_cut t 256
    rw [Nat.min_eq_left (by omega)] at k4
    exact ⟨a, b, k1, k2, k3, k4.unique g4⟩

theorem encText_toList (s : String) : encText s.toList = utf8 s := by
  have h := String.utf8Encode_toList (b := s)
  unfold utf8 encText
  rw [← h]
  simp [List.utf8Encode]

/-- **C69** (the same text) Bytes that a `String` field would accept as a string stand for the same text in an exception; other bytes never
stand for a text without U+FFFD. -/
theorem c69_same_as_string (bs : List Byte) :
    (∀ s, fromUtf8 bs = some s → LossyText bs s.toList) ∧ (∀ t, fromUtf8 bs = none → LossyText bs t → '\uFFFD' ∈ t) := by
  constructor
  · intro s h
    have e := utf8_of_fromUtf8 h
    rw [← encText_toList] at e
    have := lossy_spec bs
    rwa [← e, lossy_encText, e] at this
  · intro t h ht
    by_cases hm : '\uFFFD' ∈ t
    · exact hm
    · have e := lossyText_intact ht hm
      have : encText t = utf8 (String.ofList t) := by rw [← encText_toList]; simp
      rw [e, this, fromUtf8_utf8] at h
      cases h

/-- The example in the documentation of `String::from_utf8_lossy`. -/
example : lossy (encText "Hello ".toList ++ [0xF0, 0x90, 0x80] ++ encText "World".toList) = "Hello \uFFFDWorld".toList := by decide +kernel

/-- A stray continuation byte, an overlong form, a surrogate, a byte that never occurs, a character cut off at the end. -/
example : lossy [0x80, 0x41, 0xC0, 0x80, 0xED, 0xA0, 0x80, 0xFF, 0xE2, 0x82] = "\uFFFDA\uFFFD\uFFFD\uFFFD\uFFFD\uFFFD\uFFFD\uFFFD".toList := by
  decide +kernel

/-- A message of 258 bytes whose 256th and 257th byte belong to one character. -/
def longMessage : List Char := List.replicate 255 'a' ++ ['ä', 'b']

example : (encText longMessage).length = 258 := by decide +kernel
example : lossy ((encText longMessage).take 256) = List.replicate 255 'a' ++ ['\uFFFD'] := by decide +kernel

/-- The hypotheses of `c69_sent` hold of a message between other elements, and both outcomes occur. -/
example (t : List Char) (ht : t = "grüße".toList ∨ t = longMessage) :
    (∀ c ∈ ([.u64 1 300, .struct 2] : List WCall) ++ [.endStruct, .padding], ∀ t ∈ c.toks, t.Valid) ∧
    (canonToks (callToks ([.u64 1 300, .struct 2] ++ .exceptionData (encText t) :: [.endStruct, .padding]))).length + 11 ≤ U64MAX := by
  rcases ht with rfl | rfl <;> exact ⟨by decide, by decide +kernel⟩

example : EncTok (.exception [0x68, 0xFF]) (0x80 :: [2] ++ [0x68, 0xFF]) ∧ LossyText ([0x68, 0xFF].take 256) ['h', '\uFFFD'] := by
  refine ⟨.exception (g := [2]) ⟨by unfold IsGroup; decide, by decide, by decide⟩ (by decide), ?_⟩
  have := lossy_spec ([0x68, 0xFF].take 256)
  rwa [show lossy ([0x68, 0xFF].take 256) = ['h', '\uFFFD'] by decide +kernel] at this

end Fourleaf.Props
