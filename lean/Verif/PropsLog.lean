import Verif.PropsDe
import Verif.PropsUnknown

/-! # C70: a log of values survives a crash

A program appends values to a file, one message after the other, until the sink fails or the process is killed; the file may lose the end of what was written. What does the next
program which opens the file find, and can it go on? -/

namespace Fourleaf.Props
open Fourleaf Spec

/-- The messages of a list of values: the `i`th is what serialising the `i`th value writes, to any sink. -/
inductive Messages (env : Env) : List (Ty × V) → List (List Byte) → Prop where
  | nil : Messages env [] []
  | cons {t v xs m ms} : Produces env t v m → Messages env xs ms → Messages env ((t, v) :: xs) (m :: ms)

/-- What is needed of the messages of a log. -/
structure LogOk (env : Env) (cfg : Config) (xs : List (Ty × V)) (cs : List WCall) (ms : List (List Byte)) : Prop where
  calls : ToStreams env xs cs
  valid : ∀ c ∈ cs, ∀ t ∈ c.toks, t.Valid
  bytes : canonToks (callToks cs) = ms.flatten
  produced : Messages env xs ms
  message : ∀ m ∈ ms, ∃ l, Message l m
  rest : ∀ n, ∃ cs', ToStreams env (xs.drop n) cs' ∧ (∀ c ∈ cs', ∀ t ∈ c.toks, t.Valid) ∧ canonToks (callToks cs') = (ms.drop n).flatten
  read : ∀ (r : Stream) (n : Nat) (tail : List Byte), Over r ((ms.take n).flatten ++ tail) → r.pos + ((ms.take n).flatten ++ tail).length < U64MAX →
    ∃ r', readAll env cfg ((xs.take n).map (·.1)) r = some ((xs.take n).map (·.2), r') ∧ Over r' tail ∧ r'.pos = r.pos + (ms.take n).flatten.length ∧ Frame r r'

theorem log_ok {env : Env} (henv : env.Ok) {cfg : Config} : ∀ (xs : List (Ty × V)), (∀ x ∈ xs, ∃ k, HasType env x.1 x.2 k ∧ k.Within cfg) →
    ∃ cs ms, LogOk env cfg xs cs ms
  | [], _ => ⟨[], [], .nil, nofun, rfl, .nil, nofun, fun n => ⟨[], by simpa using .nil, nofun, by simp [callToks, canonToks]⟩, fun r n tail hr _ => ⟨r, by simp [readAll], by simpa using hr, by simp, Frame.refl r⟩⟩
  | (t, v) :: xs, h => by
    obtain ⟨k, hk, hw⟩ := h (t, v) (by simp)
    obtain ⟨cs, l, h1, h2, h3⟩ := tree_roundtrip henv hk
    obtain ⟨cs', ms, g⟩ := log_ok henv xs fun x hx => h x (List.mem_cons_of_mem _ hx)
    have hval : ∀ c ∈ cs ++ [.commit], ∀ t ∈ c.toks, t.Valid := by
      intro c hc
      rcases List.mem_append.1 hc with hc | hc
      · exact h2.valid c hc
      · cases List.mem_singleton.1 hc; intro t ht; cases ht
    have hval' : ∀ c ∈ (cs ++ [.commit]) ++ cs', ∀ t ∈ c.toks, t.Valid := by
      intro c hc
      rcases List.mem_append.1 hc with hc | hc
      · exact hval c hc
      · exact g.valid c hc
    have hbytes : canonToks (callToks ((cs ++ [.commit]) ++ cs')) = (canonToks (callToks cs) :: ms).flatten := by
      rw [callToks_append, callToks_commit, canonToks_append, g.bytes, List.flatten_cons]
    refine ⟨(cs ++ [.commit]) ++ cs', canonToks (callToks cs) :: ms, .cons ⟨cs, h1, rfl⟩ g.calls, ?_, ?_, .cons ?_ g.produced, ?_, fun n => ?_, fun r n tail hr hroom => ?_⟩
    · exact hval'
    · exact hbytes
    · refine ⟨cs ++ [.commit], ⟨cs, h1, rfl⟩, ?_, fun w hw hb hroom => ?_⟩
      · rintro _ ⟨b, h4, rfl⟩; rw [serializesBody_unique h1 h4]
      · obtain ⟨w', e1, e2, e3⟩ := c09_documented_format (cs ++ [.commit]) hval w hw hb (by rw [callToks_commit]; exact hroom)
        rw [callToks_commit] at e2
        exact ⟨w', e1, e3.2.2, e2⟩
    · intro m hm
      rcases List.mem_cons.1 hm with rfl | hm
      · exact ⟨l, h2.message⟩
      · exact g.message m hm
    · cases n with
      | zero => exact ⟨_, .cons ⟨cs, h1, rfl⟩ g.calls, hval', hbytes⟩
      | succ n => simpa using g.rest n
    · cases n with
      | zero => exact ⟨r, by simp [readAll], by simpa using hr, by simp, Frame.refl r⟩
      | succ n =>
        simp only [List.take_succ_cons, List.flatten_cons, List.append_assoc] at hr hroom ⊢
        obtain ⟨r', e1, e2⟩ := de_ok env t cfg h2.message hr hroom (h3 cfg hw).1 (h3 cfg hw).2
        obtain ⟨r'', e3, e4, e5, e6⟩ := g.read r' n tail e2.over (by rw [e2.pos]; simp only [List.length_append] at hroom ⊢; omega)
        refine ⟨r'', ?_, e4, by rw [e5, e2.pos]; simp only [List.length_append]; omega, e2.frame.trans e6⟩
        simp only [List.map_cons, readAll, e1, e3, Option.map]

theorem Messages.length {env : Env} {xs : List (Ty × V)} {ms : List (List Byte)} (h : Messages env xs ms) : ms.length = xs.length := by
  induction h with
  | nil => rfl
  | cons _ _ ih => simp [ih]

/-- A beginning of the messages consists of complete ones and, perhaps, a part of another. -/
theorem prefix_split : ∀ (ms : List (List Byte)) (_ : ∀ m ∈ ms, m ≠ []) (p : List Byte), p <+: ms.flatten →
    ∃ n torn, n ≤ ms.length ∧ p = (ms.take n).flatten ++ torn ∧ (∀ m, ms[n]? = some m → torn <+: m ∧ torn ≠ m) ∧ (n = ms.length → torn = [] ∧ p = ms.flatten)
  | [], _, p, h => ⟨0, [], Nat.le_refl _, by simpa using h, nofun, fun _ => ⟨rfl, by simpa using h⟩⟩
  | m :: ms, hne, p, h => by
    rw [List.flatten_cons] at h
    by_cases hl : m.length ≤ p.length
    · obtain ⟨p', rfl⟩ : m <+: p := List.prefix_of_prefix_length_le (List.prefix_append m ms.flatten) h hl
      obtain ⟨n, torn, h1, h2, h3, h4⟩ := prefix_split ms (fun x hx => hne x (List.mem_cons_of_mem _ hx)) p' ((List.prefix_append_right_inj m).1 h)
      refine ⟨n + 1, torn, Nat.succ_le_succ h1, ?_, fun x hx => h3 x (by simpa using hx), fun e => ?_⟩
      · rw [List.take_succ_cons, List.flatten_cons, List.append_assoc, ← h2]
      · obtain ⟨a, b⟩ := h4 (Nat.succ.inj e)
        exact ⟨a, by rw [b, List.flatten_cons]⟩
    · refine ⟨0, p, Nat.zero_le _, rfl, fun x hx => ?_, fun e => by cases e⟩
      obtain rfl : m = x := by simpa using hx
      refine ⟨List.prefix_of_prefix_length_le h (List.prefix_append m ms.flatten) (by omega), fun e => hl (by rw [e]; exact Nat.le_refl _)⟩

/-- The empty message. -/
theorem message_empty : Message [] [0x00] := by
  have := canonToks_enc (ts := [.endStruct]) (by intro t ht; cases List.mem_singleton.1 ht; trivial)
  exact ⟨[.endStruct], .nil, this⟩

theorem Message.ne_nil {l : Fields} {m : List Byte} (h : Message l m) : m ≠ [] := by
  obtain ⟨ts, h1, h2⟩ := h
  cases h2 with
  | nil => cases h1
  | cons ht _ => cases ht <;> simp

theorem written_end (old bs : List Byte) : written old old.length bs = old ++ bs := by
  unfold written
  rw [List.take_of_length_le (Nat.le_refl _), List.drop_eq_nil_of_le (by omega), List.append_nil]

/-- **C70** Values are appended to a file one after the other until the sink fails, at whatever point. Let `file` be what is found afterwards: everything that was there before, and
of what was written all, or a part from the start. It consists of the complete messages of the first `n` values and a proper part of the next one. A program that opens it and reads
the values one after the other gets exactly the first `n` values, and then, whatever it tries to read, an error: it never gets a wrong value or a part of one. If all the
writing was successful and nothing is lost, it gets all values. And it can go on: if it cuts the file off behind the values it has read and appends the others, the file is what it
would have been without the crash. -/
theorem c70_crash (env : Env) (henv : env.Ok) (cfg : Config) (xs : List (Ty × V)) (h : ∀ x ∈ xs, ∃ k, HasType env x.1 x.2 k ∧ k.Within cfg) :
    ∃ cs ms, ToStreams env xs cs ∧ Messages env xs ms ∧
      ∀ w : Stream, Sink w → w.inner.pos = w.inner.data.length →
        ∀ file, w.inner.data <+: file → file <+: (runCalls cs w).state.inner.data →
          ∃ n torn, n ≤ xs.length ∧ file = w.inner.data ++ ((ms.take n).flatten ++ torn) ∧ (∀ m, ms[n]? = some m → torn <+: m ∧ torn ≠ m) ∧ (n = xs.length → torn = []) ∧
            (∀ u w', runCalls cs w = .ok u w' → file = w'.inner.data → n = xs.length) ∧
            (∀ r : Stream, Over r (file.drop w.inner.data.length) → r.graceful = false → r.pos + ms.flatten.length + 1 < U64MAX →
              ∃ r', readAll env cfg ((xs.take n).map (·.1)) r = some ((xs.take n).map (·.2), r') ∧ r'.pos = r.pos + (ms.take n).flatten.length ∧
                ∀ (t : Ty) (cfg' : Config), ∃ e st, (deserialize env t cfg').run (r', .zero) = .err (.client e) st) ∧
            ∃ cs', ToStreams env (xs.drop n) cs' ∧
              ∀ w' : Stream, Sink w' → Benign w'.inner.sched → w'.inner.data = w.inner.data ++ (ms.take n).flatten → w'.inner.pos = w'.inner.data.length →
                w'.pos + ms.flatten.length + 11 ≤ U64MAX → ∃ w'', runCalls cs' w' = .ok () w'' ∧ w''.inner.data = w.inner.data ++ ms.flatten := by
  obtain ⟨cs, ms, g⟩ := log_ok henv xs h
  refine ⟨cs, ms, g.calls, g.produced, fun w hw hend file h1 h2 => ?_⟩
  obtain ⟨k, e1, e2, -⟩ := c22_crash_prefix cs g.valid w hw
  rw [g.bytes] at e1 e2
  rw [hend] at e1
  rw [written_end] at e1
  obtain ⟨p, rfl⟩ := h1
  rw [e1] at h2
  have hp : p <+: ms.flatten := ((List.prefix_append_right_inj _).1 h2).trans (List.take_prefix _ _)
  have hlen : ms.length = xs.length := g.produced.length
  obtain ⟨n, torn, f1, f2, f3, f4⟩ := prefix_split ms (fun m hm => let ⟨_, h⟩ := g.message m hm; Message.ne_nil h) p hp
  refine ⟨n, torn, by omega, by rw [f2], f3, fun e => (f4 (by omega)).1, fun u w' hrun hfile => ?_, fun r hr hg hroom => ?_, ?_⟩
  · rw [hrun] at e1
    have e3 := e2 u w' hrun
    rw [show (Res.ok u w' : Res Err Stream Unit).state = w' from rfl, ← hfile, List.take_of_length_le e3] at e1
    have hpe : p = ms.flatten := List.append_cancel_left e1
    by_cases hn : n < ms.length
    · obtain ⟨a, b⟩ := f3 ms[n] (List.getElem?_eq_getElem hn)
      exfalso
      have hl := congrArg List.length (hpe.symm.trans f2)
      have hsum : ms.flatten = (ms.take n).flatten ++ (ms[n] ++ (ms.drop (n + 1)).flatten) := by
        rw [← List.flatten_cons, ← List.flatten_append, List.getElem_cons_drop, List.take_append_drop]
      have ha := a.length_le
      rw [hsum] at hl
      simp only [List.length_append] at hl
      exact b (a.eq_of_length (by omega))
    · omega
  · rw [List.drop_left, f2] at hr
    have hle : ((ms.take n).flatten ++ torn).length ≤ ms.flatten.length := by rw [← f2]; exact hp.length_le
    obtain ⟨r', a1, a2, a3, a4⟩ := g.read r n torn hr (by omega)
    refine ⟨r', a1, a3, fun t cfg' => ?_⟩
    have hg' : r'.graceful = false := by rw [a4.graceful, hg]
    by_cases hn : n < ms.length
    · obtain ⟨⟨q, a⟩, b⟩ := f3 ms[n] (List.getElem?_eq_getElem hn)
      obtain ⟨l, hl⟩ := g.message ms[n] (List.getElem_mem hn)
      rw [← a] at hl
      have hsum : ms.flatten = (ms.take n).flatten ++ (ms[n] ++ (ms.drop (n + 1)).flatten) := by
        rw [← List.flatten_cons, ← List.flatten_append, List.getElem_cons_drop, List.take_append_drop]
      refine c33_truncated env t cfg' l torn q hl (fun e => b (by rw [← a, e, List.append_nil])) r' a2 hg' ?_
      have := congrArg List.length hsum
      rw [a3, a]
      simp only [List.length_append] at this
      omega
    · obtain ⟨rfl, -⟩ := f4 (by omega)
      refine c33_truncated env t cfg' [] [] [0x00] message_empty (by simp) r' a2 hg' ?_
      simp only [List.length_append] at hle
      rw [a3]; simp only [List.nil_append, List.length_singleton, List.length_nil] at hle ⊢; omega
  · obtain ⟨cs', b1, b2, b3⟩ := g.rest n
    refine ⟨cs', b1, fun w' hw' hb hd hpos hroom => ?_⟩
    have hle : (ms.drop n).flatten.length ≤ ms.flatten.length := by
      have := congrArg (fun l => (List.flatten l).length) (List.take_append_drop n ms)
      simp only [List.flatten_append, List.length_append] at this
      omega
    obtain ⟨w'', c1, c2, -⟩ := c09_documented_format cs' b2 w' hw' hb (by rw [b3]; omega)
    refine ⟨w'', c1, ?_⟩
    rw [c2, b3, hpos, written_end, hd, List.append_assoc, ← List.flatten_append, List.take_append_drop]

/-- Two values of `exEnv`, a sink with something in it that fails in its third call: the hypotheses are met. -/
example : (∀ x ∈ [(Ty.named 0, exValue), (Ty.named 0, exValue)], ∃ k, HasType exEnv x.1 x.2 k ∧ k.Within .default) ∧
    Sink (Stream.new ⟨[7], 1, [.short 0, .short 0, .fail], false⟩) := by
  refine ⟨fun x hx => ?_, ⟨.inl rfl, by decide⟩⟩
  rcases List.mem_cons.1 hx with rfl | hx
  · exact exValue_type
  · cases List.mem_singleton.1 hx
    exact exValue_type

end Fourleaf.Props
