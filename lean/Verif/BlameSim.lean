import Verif.BlamePos
import Verif.ReadsSound
import Verif.ReadsAccum

/-! # Every error of a deserialiser on a well-formed message is a defect of the message -/

namespace Fourleaf
open Spec Props

/-- The path of an error extends that of the context, and the rest of the path and the kind satisfy `B`. -/
def EP {α : Type} (c : Ctx) (r : Res (Stop DErr) (TS × Stats) α) (B : List PathFrame → Kind → Prop) : Prop :=
  ∀ e st, r = .err (.client e) st → ∃ path, e.path = c.path ++ path ∧ (e.kind = .stackOverflow ∨ B path e.kind)

namespace EP
variable {α β : Type} {c : Ctx} {B : List PathFrame → Kind → Prop} {st : TS × Stats}

theorem ret {a : α} : EP c ((Prog.ret a : P α).abs st) B := fun e st h => by cases h

theorem fail {k : Kind} (h : B [] k) : EP c ((c.fail k : P α).abs st) B := fun e st h' => by
  cases h'; exact ⟨[], by simp, .inr h⟩

theorem bind {p : P α} {f : α → P β} (h : EP c (p.abs st) B) (hf : ∀ a st', p.abs st = .ok a st' → EP c ((f a).abs st') B) :
    EP c ((Prog.bind p f).abs st) B := by
  intro e st'' he
  simp only [Prog.abs] at he
  cases hp : p.abs st with
  | ok a st' => rw [hp] at he; exact hf a st' hp e st'' he
  | err e' st' => rw [hp] at he; simp only at he; cases he; exact h e st'' hp

theorem mono {r : Res (Stop DErr) (TS × Stats) α} {B' : List PathFrame → Kind → Prop} (h : EP c r B) (hB : ∀ path k, B path k → B' path k) : EP c r B' := by
  intro e st he
  obtain ⟨path, h1, h2⟩ := h e st he
  exact ⟨path, h1, h2.imp id (hB _ _)⟩

theorem sub {sub : Ctx} {fr : PathFrame} {r : Res (Stop DErr) (TS × Stats) α} {B' : List PathFrame → Kind → Prop} (hs : sub.path = c.path ++ [fr])
    (h : EP sub r B') (hB : ∀ path k, B' path k → B (fr :: path) k) : EP c r B := by
  intro e st he
  obtain ⟨path, h1, h2⟩ := h e st he
  exact ⟨fr :: path, by rw [h1, hs, List.append_assoc]; rfl, h2.imp id (hB _ _)⟩

theorem push {name : String} {pos : Nat} {f : Ctx → P α} {cfg : Config} (hc : c.cfg = cfg) (h0 : cfg.recursionLimit ≤ c.depth → B [] .recursionLimitExceeded)
    (h : c.depth < cfg.recursionLimit → ∀ sub : Ctx, sub.cfg = cfg → sub.depth = c.depth + 1 → sub.path = c.path ++ [(name, pos)] → EP c ((f sub).abs st) B) :
    EP c ((Prog.bind (c.push name pos) f).abs st) B := by
  unfold Ctx.push
  rw [hc]
  split
  · rename_i hd; exact bind (fail (h0 hd)) fun a st' h => by cases h
  · rename_i hd
    exact h (by omega) ⟨_, _, _⟩ rfl rfl rfl

theorem lift {x : Except Err α} (h : ∀ e, x = .error e → B [] (.stream e)) : EP c ((c.lift x).abs st) B := by
  cases x with
  | ok a => exact ret
  | error e => exact fail (h e rfl)

theorem call {o : Op α} {a : α} {t' : TS} (h : TS.exec o st.1 = .ok a t') : EP c ((c.call o).abs st) B := by
  intro e st' he
  simp only [Ctx.call, Prog.abs, h] at he
  cases he

end EP

/-- What a successful run tells. -/
theorem SimR.inv {α : Type} {cfg : Config} {u : Stats} {r : Res (Stop DErr) (TS × Stats) α} {m : PM α} {Q : TS → Prop} (h : SimR cfg u r m Q) {a : α} {st : TS × Stats}
    (hr : r = .ok a st) : ∃ c, m = .ret a c ∧ st.2.fits cfg ∧ Q st.1 := by
  rcases m.cases with ⟨b, c, hm⟩ | ⟨k, c, hm⟩
  · by_cases hf : (u + c).fits cfg
    · obtain ⟨t', h1, h2⟩ := h.ok b c hm hf
      rw [hr] at h1; cases h1
      exact ⟨c, hm, hf, h2⟩
    · obtain ⟨e, st', h1, -⟩ := h.over b c hm hf
      rw [hr] at h1; cases h1
  · obtain ⟨e, st', h1, -⟩ := h.err k c hm
    rw [hr] at h1; cases h1

theorem abs_ok_total {α : Type} {p : P α} {st st' : TS × Stats} {a : α} (h : p.abs st = .ok a st') : st'.1.total = st.1.total := by
  have := Prog.abs_total p st
  rw [h] at this; exact this

/-! ## Counting occurrences -/

/-- The accumulator after `n` occurrences. -/
def AccN : Ty → Acc → Nat → Prop
  | .boxed t, a, n => AccN t a n
  | .small _ e, a, n => if e.isU8 then (a.flag = true ↔ 1 ≤ n) ∧ (a.flag = false → a.items = []) else a.flag = false ∧ a.items.length = n
  | .large m e, a, n => if e.isU8 then (n = 0 → a.items = []) ∧ (1 ≤ n → a.items.length = m) else a.items.length = n
  | .vec e, a, n => if e.isU8 then (a.flag = true ↔ 1 ≤ n) else True
  | .prim _, a, n | .tuple _, a, n | .named _, a, n | .unknownField _, a, n | .option _, a, n => a.items = [] ↔ n = 0
  | .coll .., _, _ | .map .., _, _ | .unknownFields _, _, _ => True

theorem AccN.init : ∀ t : Ty, AccN t .init 0
  | .boxed t => AccN.init t
  | .small _ e => by unfold AccN; split <;> simp [Acc.init]
  | .large m e => by unfold AccN; split <;> simp [Acc.init]
  | .vec e => by unfold AccN; split <;> simp [Acc.init]
  | .prim _ | .tuple _ | .named _ | .unknownField _ | .option _ => by simp [AccN, Acc.init]
  | .coll .. | .map .. | .unknownFields _ => trivial

theorem AccN.step {env : Env} {cfg : Config} {d : Nat} {tag : Byte} {v : Val} {n : Nat} {x x' : Acc} {c : Stats} : ∀ {k : Nat} {t : Ty}, AccN t x n →
    (pops env cfg k).field t x d tag v = .ret x' c → AccN t x' (n + 1) := by
  intro k
  induction k with
  | zero => intro t _ h; exact absurd h PM.fail_ne_ret
  | succ k ih =>
    intro t hx h
    have h : pField (pops env cfg k) t x d tag v = .ret x' c := h
    unfold pField at h
    cases t with
    | boxed t => exact ih (t := t) hx h
    | prim p =>
      simp only at h
      split at h
      · exact absurd h PM.fail_ne_ret
      · obtain ⟨u, -, rfl⟩ := bind_rets.1 h; simp [AccN]
    | tuple p =>
      simp only at h
      split at h
      · exact absurd h PM.fail_ne_ret
      · obtain ⟨u, -, rfl⟩ := bind_rets.1 h; simp [AccN]
    | named p =>
      simp only at h
      split at h
      · exact absurd h PM.fail_ne_ret
      · obtain ⟨u, -, rfl⟩ := bind_rets.1 h; simp [AccN]
    | option p =>
      simp only at h
      split at h
      · exact absurd h PM.fail_ne_ret
      · obtain ⟨u, -, rfl⟩ := bind_rets.1 h; simp [AccN]
    | unknownField zc =>
      simp only at h
      split at h
      · exact absurd h PM.fail_ne_ret
      · cases v with
        | int n => obtain ⟨rfl, -⟩ := PM.ret_inj h; simp [AccN]
        | _ => obtain ⟨u, -, rfl⟩ := bind_rets.1 h; simp [AccN]
    | small m e =>
      simp only at h
      unfold AccN at hx ⊢
      by_cases he : e.isU8 = true
      · simp only [he, if_true] at h hx ⊢
        split at h
        · exact absurd h PM.fail_ne_ret
        · obtain ⟨u, -, rfl⟩ := bind_rets.1 h; simp
      · simp only [he, Bool.false_eq_true, if_false] at h hx ⊢
        split at h
        · exact absurd h PM.fail_ne_ret
        · split at h
          · exact absurd h PM.fail_ne_ret
          · obtain ⟨u, -, rfl⟩ := bind_rets.1 h; simp [hx.2]
    | large m e =>
      simp only at h
      unfold AccN at hx ⊢
      by_cases he : e.isU8 = true
      · simp only [he, if_true] at h hx ⊢
        obtain ⟨u, c1, c2, h1, h2, -⟩ := PM.bind_eq_ret h
        split at h2
        · exact absurd h2 PM.fail_ne_ret
        · obtain ⟨rfl, -⟩ := PM.ret_inj h2
          obtain ⟨data, -, h3, rfl, -⟩ := readArr_iff.1 h1
          simp [h3]
      · simp only [he, Bool.false_eq_true, if_false] at h hx ⊢
        split at h
        · exact absurd h PM.fail_ne_ret
        · obtain ⟨u, -, rfl⟩ := bind_rets.1 h; simp [hx]
    | vec e =>
      simp only at h
      unfold AccN at hx ⊢
      by_cases he : e.isU8 = true
      · simp only [he, if_true] at h hx ⊢
        split at h
        · exact absurd h PM.fail_ne_ret
        · obtain ⟨u, -, rfl⟩ := bind_rets.1 h; simp
      · simp only [he, Bool.false_eq_true, if_false]
    | coll => trivial
    | map => trivial
    | unknownFields => trivial

/-- How often a tag occurs. -/
def times (tag : Byte) (l : Fields) : Nat := l.countP (·.1 = tag)

theorem times_plains (tag : Byte) : ∀ L : LFields, times tag (plains L) = timesOf tag L
  | [] => rfl
  | (p, g, v) :: L => by
    have ih := times_plains tag L
    unfold times timesOf at *
    rw [plains, plainField, plainTagged, List.countP_cons, List.countP_cons, ih]

theorem plains_append : ∀ L L' : LFields, plains (L ++ L') = plains L ++ plains L'
  | [], L' => rfl
  | x :: L, L' => by rw [List.cons_append, plains, plains, plains_append L L', List.cons_append]

/-- The accumulators after the fields `l`. -/
def LoopN (ds : List FieldDecl) (st : LoopSt) (l : Fields) : Prop := ∀ (i : Nat) (x : FieldDecl), ds[i]? = some x → AccN x.ty (st.accs i) (times x.tag l)

theorem LoopN.init (ds : List FieldDecl) : LoopN ds .init [] := fun _ x _ => AccN.init x.ty

theorem nodup_index {ds : List FieldDecl} (hn : (ds.map (·.tag)).Nodup) {i j : Nat} {x y : FieldDecl} (hi : ds[i]? = some x) (hj : ds[j]? = some y) (h : x.tag = y.tag) : i = j := by
  obtain ⟨hi', rfl⟩ := List.getElem?_eq_some_iff.1 hi
  obtain ⟨hj', rfl⟩ := List.getElem?_eq_some_iff.1 hj
  exact (List.getElem_inj (xs := ds.map FieldDecl.tag) (h₀ := by simpa using hi') (h₁ := by simpa using hj') hn).1 (by simpa using h)

theorem findIdx_spec {ds : List FieldDecl} {tag : Byte} {i : Nat} (h : ds.findIdx? (fun x => decide (x.tag = tag)) = some i) : ∃ x, ds[i]? = some x ∧ x.tag = tag := by
  obtain ⟨h1, h2, -⟩ := List.findIdx?_eq_some_iff_getElem.1 h
  exact ⟨ds[i], List.getElem?_eq_getElem h1, by simpa using h2⟩

theorem LoopN.step {env : Env} {cfg : Config} {k : Nat} {ds : List FieldDecl} (hn : (ds.map (·.tag)).Nodup) {unk : Option Bool} {d : Nat} {st st' : LoopSt} {tag : Byte} {v : Val} {l : Fields} {c : Stats}
    (h : LoopN ds st l) (hs : pFieldStep cfg (pops env cfg k) ds unk d st tag v = .ret st' c) : LoopN ds st' (l ++ [(tag, v)]) := by
  unfold pFieldStep at hs
  intro j y hy
  have ht : times y.tag (l ++ [(tag, v)]) = times y.tag l + if tag = y.tag then 1 else 0 := by
    unfold times; rw [List.countP_append, List.countP_singleton]; simp
  cases hf : ds.findIdx? (fun x => decide (x.tag = tag)) with
  | some i =>
    obtain ⟨x, hx, rfl⟩ := findIdx_spec hf
    rw [hf] at hs
    simp only [hx] at hs
    obtain ⟨d', c1, c2, h1, h2, -⟩ := PM.bind_eq_ret hs
    obtain ⟨a, h3, rfl⟩ := bind_rets.1 h2
    by_cases hij : j = i
    · subst hij
      rw [hx] at hy; cases hy
      rw [ht, if_pos rfl]
      simp only [upd, if_true]
      exact AccN.step (h j _ hx) h3
    · rw [ht, if_neg (fun he => hij (nodup_index hn hy hx he.symm))]
      simp only [upd, hij, if_false]
      exact h j y hy
  | none =>
    rw [hf] at hs
    have hne : tag ≠ y.tag := by
      have := List.findIdx?_eq_none_iff.1 hf y (List.mem_of_getElem? hy)
      simp at this; exact fun h => this h.symm
    rw [ht, if_neg hne]
    have : st'.accs = st.accs := by
      cases unk with
      | some zc =>
        simp only at hs
        obtain ⟨d', c1, c2, h1, h2, -⟩ := PM.bind_eq_ret hs
        obtain ⟨a, h3, rfl⟩ := bind_rets.1 h2
        rfl
      | none =>
        simp only at hs
        split at hs
        · obtain ⟨rfl, -⟩ := PM.ret_inj hs; rfl
        · exact absurd hs PM.fail_ne_ret
    rw [this]
    exact h j y hy

theorem LoopN.loop {env : Env} {cfg : Config} {k : Nat} {ds : List FieldDecl} (hn : (ds.map (·.tag)).Nodup) {unk : Option Bool} {d : Nat} : ∀ {l' l : Fields} {st st' : LoopSt} {c : Stats},
    LoopN ds st l → pLoop cfg (pops env cfg k) ds unk d st l' = .ret st' c → LoopN ds st' (l ++ l') := by
  intro l'
  induction l' with
  | nil => intro l st st' c h hs; obtain ⟨rfl, -⟩ := PM.ret_inj hs; simpa using h
  | cons x l' ih =>
    obtain ⟨tag, v⟩ := x
    intro l st st' c h hs
    obtain ⟨s1, c1, c2, h1, h2, -⟩ := PM.bind_eq_ret hs
    have := ih (h.step hn h1) h2
    rwa [List.append_assoc] at this

end Fourleaf
