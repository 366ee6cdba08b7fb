import Verif.PropsBlame

/-! # C62: the format is unambiguous -/

namespace Fourleaf
open Spec

theorem encInt_unique {n n' : Nat} {g g' r r' : List Byte} (h : EncInt n g) (h' : EncInt n' g') (e : g ++ r = g' ++ r') : n = n' ∧ g = g' ∧ r = r' := by
  obtain ⟨h1, h2⟩ := isGroup_append_unique g g' r r' h.1 h'.1 e
  subst h1
  exact ⟨h.2.2.symm.trans h'.2.2, rfl, h2⟩

theorem tag_unique {k : Nat} {d a b : Byte} (h : d.toNat = k + a.toNat) (h' : d.toNat = k + b.toNat) : a = b := UInt8.toNat_inj.1 (by omega)

theorem encTok_unique {t t' : Tok} {bs bs' r r' : List Byte} (h : EncTok t bs) (h' : EncTok t' bs') (e : bs ++ r = bs' ++ r') : t = t' ∧ bs = bs' := by
  cases h <;> cases h' <;> simp only [List.cons_append, List.nil_append, List.append_assoc, List.cons.injEq] at e <;> obtain ⟨hd, e⟩ := e <;>
    first
    | exact ⟨rfl, rfl⟩
    | (exfalso; simp only [TagOk] at *; subst hd; simp at *; omega; done)
    | skip
  case enum.enum h1 h2 h3 _ _ _ _ h4 h5 h6 =>
    subst hd
    obtain ⟨h7, rfl, -⟩ := encInt_unique h3 h6 e
    rw [UInt64.toNat_inj.1 h7, tag_unique h2 h5]; exact ⟨rfl, rfl⟩
  case int.int h1 h2 h3 _ _ _ _ h4 h5 h6 =>
    subst hd
    obtain ⟨h7, rfl, -⟩ := encInt_unique h3 h6 e
    rw [UInt64.toNat_inj.1 h7, tag_unique h2 h5]; exact ⟨rfl, rfl⟩
  case blob.blob h1 h2 h3 _ _ _ _ _ h4 h5 h6 _ =>
    subst hd
    obtain ⟨h7, rfl, h8⟩ := encInt_unique h3 h6 e
    obtain ⟨rfl, -⟩ := List.append_inj h8 h7
    rw [tag_unique h2 h5]; exact ⟨rfl, rfl⟩
  case struct.struct h1 h2 _ _ h4 h5 =>
    subst hd
    rw [tag_unique h2 h5]; exact ⟨rfl, rfl⟩
  case exception.exception h3 _ _ _ h6 _ =>
    obtain ⟨h7, rfl, h8⟩ := encInt_unique h3 h6 e
    obtain ⟨rfl, -⟩ := List.append_inj h8 h7
    exact ⟨rfl, rfl⟩
  all_goals (exfalso; revert hd; decide)

/-- Messages at the front of the same bytes. -/
theorem located_unique {p : Nat} {L : LFields} {stop : Nat} {m : List Byte} (h : Located p L stop m) :
    ∀ {L' : LFields} {stop' : Nat} {m' r r' : List Byte}, Located p L' stop' m' → m ++ r = m' ++ r' → L = L' ∧ stop = stop' ∧ m = m' := by
  induction h with
  | nil h =>
    intro L' stop' m' r r' h' e
    cases h' with
    | nil h' => obtain ⟨-, rfl⟩ := encTok_unique h h' e; exact ⟨rfl, rfl, rfl⟩
    | pad h' | int h' | blob h' => simp only [List.append_assoc] at e; cases (encTok_unique h h' e).1
    | struct h' | enum h' => simp only [List.append_assoc] at e; cases (encTok_unique h h' e).1
  | pad h _ ih =>
    intro L' stop' m' r r' h' e
    simp only [List.append_assoc] at e
    cases h' with
    | nil h' => cases (encTok_unique h h' e).1
    | pad h' g =>
      simp only [List.append_assoc] at e
      obtain ⟨-, rfl⟩ := encTok_unique h h' e
      obtain ⟨rfl, rfl, rfl⟩ := ih g (List.append_cancel_left e)
      exact ⟨rfl, rfl, rfl⟩
    | int h' | blob h' => simp only [List.append_assoc] at e; cases (encTok_unique h h' e).1
    | struct h' | enum h' => simp only [List.append_assoc] at e; cases (encTok_unique h h' e).1
  | int h _ ih =>
    intro L' stop' m' r r' h' e
    simp only [List.append_assoc] at e
    cases h' with
    | nil h' => cases (encTok_unique h h' e).1
    | int h' g =>
      simp only [List.append_assoc] at e
      obtain ⟨h1, rfl⟩ := encTok_unique h h' e
      cases h1
      obtain ⟨rfl, rfl, rfl⟩ := ih g (List.append_cancel_left e)
      exact ⟨rfl, rfl, rfl⟩
    | pad h' | blob h' => simp only [List.append_assoc] at e; cases (encTok_unique h h' e).1
    | struct h' | enum h' => simp only [List.append_assoc] at e; cases (encTok_unique h h' e).1
  | blob h _ ih =>
    intro L' stop' m' r r' h' e
    simp only [List.append_assoc] at e
    cases h' with
    | nil h' => cases (encTok_unique h h' e).1
    | blob h' g =>
      simp only [List.append_assoc] at e
      obtain ⟨h1, rfl⟩ := encTok_unique h h' e
      cases h1
      obtain ⟨rfl, rfl, rfl⟩ := ih g (List.append_cancel_left e)
      exact ⟨rfl, rfl, rfl⟩
    | pad h' | int h' => simp only [List.append_assoc] at e; cases (encTok_unique h h' e).1
    | struct h' | enum h' => simp only [List.append_assoc] at e; cases (encTok_unique h h' e).1
  | struct h _ _ ih1 ih2 =>
    intro L' stop' m' r r' h' e
    simp only [List.append_assoc] at e
    cases h' with
    | nil h' => cases (encTok_unique h h' e).1
    | struct h' g1 g2 =>
      simp only [List.append_assoc] at e
      obtain ⟨h1, rfl⟩ := encTok_unique h h' e
      cases h1
      have e := List.append_cancel_left e
      obtain ⟨rfl, rfl, rfl⟩ := ih1 g1 e
      obtain ⟨rfl, rfl, rfl⟩ := ih2 g2 (List.append_cancel_left e)
      exact ⟨rfl, rfl, rfl⟩
    | pad h' | int h' | blob h' => simp only [List.append_assoc] at e; cases (encTok_unique h h' e).1
    | enum h' => simp only [List.append_assoc] at e; cases (encTok_unique h h' e).1
  | enum h _ _ ih1 ih2 =>
    intro L' stop' m' r r' h' e
    simp only [List.append_assoc] at e
    cases h' with
    | nil h' => cases (encTok_unique h h' e).1
    | enum h' g1 g2 =>
      simp only [List.append_assoc] at e
      obtain ⟨h1, rfl⟩ := encTok_unique h h' e
      cases h1
      have e := List.append_cancel_left e
      obtain ⟨rfl, rfl, rfl⟩ := ih1 g1 e
      obtain ⟨rfl, rfl, rfl⟩ := ih2 g2 (List.append_cancel_left e)
      exact ⟨rfl, rfl, rfl⟩
    | pad h' | int h' | blob h' => simp only [List.append_assoc] at e; cases (encTok_unique h h' e).1
    | struct h' => simp only [List.append_assoc] at e; cases (encTok_unique h h' e).1

theorem _root_.Fourleaf.Message.unique {l l' : Fields} {m m' r r' : List Byte} (h : Message l m) (h' : Message l' m') (e : m ++ r = m' ++ r') : l = l' ∧ m = m' := by
  obtain ⟨L, stop, h1, rfl⟩ := h.located 0
  obtain ⟨L', stop', h2, rfl⟩ := h'.located 0
  obtain ⟨rfl, -, rfl⟩ := located_unique h1 h2 e
  exact ⟨rfl, rfl⟩

theorem encToks_unique {ts ts' : List Tok} {m : List Byte} (h : EncToks ts m) (h' : EncToks ts' m) : ts = ts' := by
  induction h generalizing ts' with
  | nil =>
    generalize hm : ([] : List Byte) = m at h'
    cases h' with
    | nil => rfl
    | cons h1 _ => cases h1 <;> simp at hm
  | @cons t ts bs bs' h1 _ ih =>
    generalize hm : bs ++ bs' = m at h'
    cases h' with
    | nil => cases h1 <;> simp at hm
    | cons h2 h3 =>
      obtain ⟨rfl, rfl⟩ := encTok_unique h1 h2 hm
      cases List.append_cancel_left hm
      rw [ih h3]

end Fourleaf

namespace Fourleaf.Props
open Fourleaf Spec

/-- **C62** Bytes are the spelling of at most one sequence of elements. -/
theorem c62_elements (ts ts' : List Tok) (m : List Byte) (h : EncToks ts m) (h' : EncToks ts' m) : ts = ts' := encToks_unique h h'

/-- **C62** Whatever follows, at most one message is at the front of given bytes, in one extent; with the same fields at the same positions. In particular no message is a proper
prefix of another. -/
theorem c62_messages (p : Nat) (L L' : LFields) (stop stop' : Nat) (m m' r r' : List Byte) (h : Located p L stop m) (h' : Located p L' stop' m') (e : m ++ r = m' ++ r') :
    L = L' ∧ stop = stop' ∧ m = m' ∧ r = r' := by
  obtain ⟨rfl, rfl, rfl⟩ := located_unique h h' e
  exact ⟨rfl, rfl, rfl, List.append_cancel_left e⟩

/-- The example message from C61 is the only one at the front of these bytes. -/
example (L : LFields) (stop : Nat) (m r : List Byte) (h : Located 0 L stop m) (e : badBytes ++ [65, 1] = m ++ r) : L = badLoc ∧ stop = 11 ∧ m = badBytes := by
  obtain ⟨rfl, rfl, rfl, -⟩ := c62_messages 0 badLoc L 11 stop badBytes m [65, 1] r badLocated h e
  exact ⟨rfl, rfl, rfl⟩

/-- **C62** Serialised values can be told apart, whatever follows them: if what is written for two values of a type, followed by anything, is the same bytes, then the values are
the same and so is what follows. -/
theorem c62_values (env : Env) (henv : env.Ok) (t : Ty) (v v' : V) (k k' : Need) (hv : HasType env t v k) (hv' : HasType env t v' k') (cs cs' : List WCall)
    (h : ToStream env t v cs) (h' : ToStream env t v' cs') (r r' : List Byte) (e : canonToks (callToks cs) ++ r = canonToks (callToks cs') ++ r') : v = v' ∧ r = r' := by
  obtain ⟨a, l, h1, h2, h3⟩ := tree_roundtrip henv hv
  obtain ⟨a', l', h1', h2', h3'⟩ := tree_roundtrip henv hv'
  obtain ⟨b, h4, rfl⟩ := h
  obtain ⟨b', h4', rfl⟩ := h'
  rw [callToks_commit, callToks_commit, serializesBody_unique h4 h1, serializesBody_unique h4' h1'] at e
  obtain ⟨rfl, e'⟩ := h2.message.unique h2'.message e
  rw [e'] at e
  refine ⟨?_, List.append_cancel_left e⟩
  have g := (h3 ⟨max k.depth k'.depth, true, max k.used.blob k'.used.blob, max k.used.collected k'.used.collected⟩ ⟨Nat.le_max_left .., Nat.le_max_left .., Nat.le_max_left .., by simp⟩).1
  have g' := (h3' ⟨max k.depth k'.depth, true, max k.used.blob k'.used.blob, max k.used.collected k'.used.collected⟩ ⟨Nat.le_max_right .., Nat.le_max_right .., Nat.le_max_right .., by simp⟩).1
  rw [g] at g'
  exact (PM.ret_inj g').1

/-- What is written for the example value is not written for any other. -/
example (v : V) (k : Need) (hv : HasType exEnv (.named 0) v k) (cs cs' : List WCall) (h : ToStream exEnv (.named 0) exValue cs) (h' : ToStream exEnv (.named 0) v cs')
    (e : canonToks (callToks cs) = canonToks (callToks cs')) : exValue = v := by
  obtain ⟨k0, h0, -⟩ := exValue_type
  exact (c62_values exEnv exEnv_ok (.named 0) exValue v k0 k h0 hv cs cs' h h' [] [] (by rw [e])).1

end Fourleaf.Props
