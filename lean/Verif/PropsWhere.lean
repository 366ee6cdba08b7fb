import Verif.PathNames
import Verif.PropsBlame

/-! # The location in an error (C64)

The first component of every `de::Error` is a `String`: the context, rendered when the error was raised. -/

namespace Fourleaf
open Spec

/-- `Display for Context` (`src/de.rs` 349-358): the context is a list linked by `next`, so here the innermost frame comes first. The end of the list is `Context::top` (273-283), with an empty name and position 0. -/
def showCtx : List PathFrame → String
  | [] => "" ++ "{" ++ toString (0 : Nat) ++ "}"
  | (field, pos) :: next => showCtx next ++ "." ++ field ++ "{" ++ toString pos ++ "}"

/-- `context.to_string()` (`src/de.rs` 119, 290, 319, 328, 340, …). -/
def Ctx.display (c : Ctx) : String := showCtx c.path.reverse
/-- The first component of an error: `Errors` are made with `context.to_string()`. -/
def DErr.wo (e : DErr) : String := showCtx e.path.reverse

/-! ## Characters -/

/-- A frame as it appears behind the enclosing ones. -/
def frameChars (f : PathFrame) : List Char := '.' :: (f.1.toList ++ '{' :: (Nat.toDigits 10 f.2 ++ ['}']))

theorem showCtx_chars : ∀ l : List PathFrame, (showCtx l).toList = ['{', '0', '}'] ++ (l.reverse.flatMap frameChars)
  | [] => by decide
  | (n, p) :: l => by
    rw [showCtx]
    simp only [String.toList_append, showCtx_chars l, List.reverse_cons, List.flatMap_append, List.flatMap_cons, List.flatMap_nil, frameChars]
    simp [Nat.toString_eq_repr, Nat.toList_repr]

theorem split_unique {ch : Char} : ∀ {a b x y : List Char}, ch ∉ a → ch ∉ b → a ++ ch :: x = b ++ ch :: y → a = b ∧ x = y
  | [], [], _, _, _, _, h => by simpa using h
  | [], b :: bs, _, _, _, hb, h => by
    simp only [List.nil_append, List.cons_append, List.cons.injEq] at h
    exact absurd (h.1 ▸ List.mem_cons_self ..) hb
  | a :: as, [], _, _, ha, _, h => by
    simp only [List.nil_append, List.cons_append, List.cons.injEq] at h
    exact absurd (h.1 ▸ List.mem_cons_self ..) ha
  | a :: as, b :: bs, x, y, ha, hb, h => by
    simp only [List.cons_append, List.cons.injEq] at h
    obtain ⟨h1, h2⟩ := split_unique (fun h => ha (List.mem_cons_of_mem _ h)) (fun h => hb (List.mem_cons_of_mem _ h)) h.2
    exact ⟨by rw [h.1, h1], h2⟩

theorem digits_inj {n m : Nat} (h : Nat.toDigits 10 n = Nat.toDigits 10 m) : n = m := by
  rw [← Nat.ofDigitChars_ten_toDigits (n := n), h, Nat.ofDigitChars_ten_toDigits]

theorem not_in_digits {ch : Char} (h : ch.isDigit = false) (n : Nat) : ch ∉ Nat.toDigits 10 n := fun hm => by
  have := Nat.isDigit_of_mem_toDigits (by decide) (by decide) hm
  rw [h] at this; cases this

/-- A name without an opening brace, as every Rust identifier. -/
def Plain (n : String) : Prop := '{' ∉ n.toList

theorem frames_inj : ∀ {p q : List PathFrame}, (∀ f ∈ p, Plain f.1) → (∀ f ∈ q, Plain f.1) → p.flatMap frameChars = q.flatMap frameChars → p = q
  | [], [], _, _, _ => rfl
  | [], _ :: _, _, _, h => by simp [frameChars] at h
  | _ :: _, [], _, _, h => by simp [frameChars] at h
  | (n, i) :: p, (m, j) :: q, hp, hq, h => by
    simp only [List.flatMap_cons, frameChars, List.cons_append, List.append_assoc, List.cons.injEq, true_and, List.nil_append] at h
    obtain ⟨h1, h2⟩ := split_unique (hp _ (List.mem_cons_self ..)) (hq _ (List.mem_cons_self ..)) h
    obtain ⟨h3, h4⟩ := split_unique (not_in_digits (by decide) _) (not_in_digits (by decide) _) h2
    rw [frames_inj (fun f hf => hp f (List.mem_cons_of_mem _ hf)) (fun f hf => hq f (List.mem_cons_of_mem _ hf)) h4]
    have h5 : n = m := String.toList_inj.1 h1
    rw [h5, digits_inj h3]

theorem plain_builtin : Builtin Plain where
  top := by unfold Plain; decide
  tuple i := by
    unfold Plain
    intro h
    have e : (s!"field_{i}").toList = "field_".toList ++ Nat.toDigits 10 i := by simp [toString, Nat.toList_repr]
    rw [e] at h
    rcases List.mem_append.1 h with h | h
    · exact absurd h (by decide)
    · exact not_in_digits (by decide) _ h
  tag b := by
    unfold Plain tagName
    intro h
    rw [String.toList_ofList] at h
    have hb := b.toNat_lt
    have key : ∀ k, k < 26 → '{' ≠ Char.ofNat (48 + k) := by decide
    rcases List.mem_cons.1 h with h | h
    · exact key _ (by omega) h
    · exact key _ (by omega) (List.mem_singleton.1 h)

namespace Props

/-- **C64** The `String` in an error determines the path of the error, that is the names and positions of the fields from the outermost to the innermost one, provided the names of the declared
fields contain no brace (they are identifiers). The two errors may come from different programs, types, configurations and inputs. -/
theorem c64_location (env env' : Env) (hid : ∀ i, ∀ n ∈ (env.decl i).names, '{' ∉ n.toList) (hid' : ∀ i, ∀ n ∈ (env'.decl i).names, '{' ∉ n.toList)
    (t t' : Ty) (cfg cfg' : Config) (s s' : Stream) (e e' : DErr) (st st' : PSt Stats)
    (h : (deserialize env t cfg).run (s, .zero) = .err (.client e) st) (h' : (deserialize env' t' cfg').run (s', .zero) = .err (.client e') st')
    (hwo : e.wo = e'.wo) : e.path = e'.path := by
  have h1 := (ops_named plain_builtin env hid _).body t (.top cfg) _ e _ h
  have h2 := (ops_named plain_builtin env' hid' _).body t' (.top cfg') _ e' _ h'
  have h3 := congrArg String.toList hwo
  unfold DErr.wo at h3
  rw [showCtx_chars, showCtx_chars, List.reverse_reverse, List.reverse_reverse] at h3
  exact frames_inj (fun f hf => (h1 f hf).elim (fun hx => by cases hx) id) (fun f hf => (h2 f hf).elim (fun hx => by cases hx) id) (List.append_cancel_left h3)

/-- **C64** (nested) Whatever is deserialised in a context, the text of the context is a prefix of the location in an error. -/
theorem c64_nested (env : Env) (n : Nat) (c : Ctx) (hlen : c.path.length = c.depth) (hle : c.depth ≤ c.cfg.recursionLimit) (t : Ty) (a : Acc) (f : Field) (st st' : PSt Stats) (e : DErr) :
    (((ops env n).body t c).run st = .err (.client e) st' ∨ ((ops env n).element t c f).run st = .err (.client e) st' ∨
      ((ops env n).field t a c f).run st = .err (.client e) st' ∨ ((ops env n).finish t a c).run st = .err (.client e) st') →
    c.display.toList <+: e.wo.toList := by
  intro h
  obtain ⟨⟨l, h1⟩, -⟩ := c50_paths env n c hlen hle t a f st st' e h
  unfold Ctx.display DErr.wo
  rw [showCtx_chars, showCtx_chars, List.reverse_reverse, List.reverse_reverse, ← h1, List.flatMap_append, ← List.append_assoc]
  exact List.prefix_append _ _

/-! ### Examples -/

example : ∃ d st, (deserialize exEnv (.tuple [.named 0, .prim .bool]) .default).run (Stream.fromSlice badBytes, .zero) = .err (.client d) st ∧
    d.wo = "{0}.field_0{1}.b{4}" := by
  obtain ⟨st, h⟩ := badError
  exact ⟨_, st, h, by decide +kernel⟩

theorem exNames : ∀ i, ∀ n ∈ (exEnv.decl i).names, '{' ∉ n.toList := by
  intro i
  match i with
  | 0 => decide +kernel
  | 1 => decide +kernel
  | _ + 2 => intro n hn; cases hn

/-- Any other error with that text is about the same field. -/
example (t : Ty) (cfg : Config) (s : Stream) (e : DErr) (st : PSt Stats) (h : (deserialize exEnv t cfg).run (s, .zero) = .err (.client e) st) (hw : e.wo = "{0}.field_0{1}.b{4}") :
    e.path = [("field_0", 1), ("b", 4)] := by
  obtain ⟨st', h'⟩ := badError
  exact c64_location exEnv exEnv exNames exNames t _ cfg .default s _ e _ st st' h h' (hw.trans (by decide +kernel))

/-- The condition on the names is needed. -/
example : DErr.wo ⟨.invalidValue, [("a", 1), ("b", 2)]⟩ = DErr.wo ⟨.invalidValue, [("a{1}.b", 2)]⟩ := by decide +kernel

end Props
end Fourleaf
