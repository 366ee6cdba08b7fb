import Verif.Cut
import Verif.DocSpec

/-! # Documents and their completed forms -/

namespace Fourleaf
open Spec

/-- The beginning of `ts2` is a body, which is the completed form of a document at the beginning of `ts1`, and so on `n` times; or `ts1` ended, or went wrong. -/
def Closed (g : Bool) (X : Nat) : Nat → List HTok → List HTok → Prop
  | 0, _, _ => True
  | n + 1, ts1, ts2 => ∃ l a2 b2, ts2 = a2 ++ b2 ∧ BodyOf l (a2.map (·.2)) ∧
    ((∃ a1 b1, ts1 = a1 ++ b1 ∧ Document (decide (1 ≤ n)) .struct l (a1.map (·.2)) ∧ wt a1 = wt a2 ∧ b2 = conv g X n b1 ∧ Closed g X n b1 b2) ∨
     (∃ c a1 b1, ts1 = a1 ++ b1 ∧ c ≠ .struct ∧ Document (decide (1 ≤ n)) c l (a1.map (·.2)) ∧ (c = .input → g = true ∧ b1 = []) ∧ wt a1 = wt a2 ∧ b2 = List.replicate n (0, .endStruct)) ∨
     (X ≤ wt a2 ∧ b2 = List.replicate n (X, .endStruct)))

/-- Put an element in front. -/
theorem Closed.cons {g : Bool} {X : Nat} {n : Nat} {ts1 ts2 : List HTok} {x y : HTok} {f : Fields → Fields} (h : Closed g X (n + 1) ts1 ts2)
    (hb : ∀ l ts, BodyOf l ts → BodyOf (f l) (y.2 :: ts)) (hd : ∀ c l ts, Document (decide (1 ≤ n)) c l ts → Document (decide (1 ≤ n)) c (f l) (x.2 :: ts)) (hw : wt [x] = wt [y]) :
    Closed g X (n + 1) (x :: ts1) (y :: ts2) := by
  obtain ⟨l, a2, b2, rfl, h2, h3⟩ := h
  have w1 : ∀ a, wt (x :: a) = wt [x] + wt a := fun a => wt_append [x] a
  have w2 : ∀ a, wt (y :: a) = wt [y] + wt a := fun a => wt_append [y] a
  refine ⟨f l, y :: a2, b2, rfl, hb _ _ h2, ?_⟩
  rcases h3 with ⟨a1, b1, rfl, k1, k2, k3⟩ | ⟨c, a1, b1, rfl, k0, k1, k2, k3, k4⟩ | ⟨k1, k2⟩
  · exact .inl ⟨x :: a1, b1, rfl, hd _ _ _ k1, by rw [w1, w2]; omega, k3⟩
  · exact .inr (.inl ⟨c, x :: a1, b1, rfl, k0, hd _ _ _ k1, k2, by rw [w1, w2]; omega, k4⟩)
  · exact .inr (.inr ⟨by rw [w2]; omega, k2⟩)

/-- Close a nested struct. -/
theorem Closed.nest {g : Bool} {X : Nat} {n : Nat} {ts1 ts2 : List HTok} {x : HTok} {f : Fields → Byte × Val} (h : Closed g X (n + 2) ts1 ts2)
    (hb : ∀ l fs a b, BodyOf l a → BodyOf fs b → BodyOf (f l :: fs) (x.2 :: (a ++ b)))
    (hd : ∀ m c l fs a b, Document true .struct l a → Document m c fs b → Document m c (f l :: fs) (x.2 :: (a ++ b)))
    (hc : ∀ m c l a, Document true c l a → c ≠ .struct → Document m c [f l] (x.2 :: a)) :
    Closed g X (n + 1) (x :: ts1) (x :: ts2) := by
  obtain ⟨l, a2, b2, rfl, h2, h3⟩ := h
  have w1 : ∀ a, wt (x :: a) = wt [x] + wt a := fun a => wt_append [x] a
  have hn : decide (1 ≤ n + 1) = true := by simp
  rw [hn] at h3
  rcases h3 with ⟨a1, b1, rfl, k1, k2, -, k3⟩ | ⟨c, a1, b1, rfl, k0, k1, k2, k3, rfl⟩ | ⟨k1, rfl⟩
  · obtain ⟨l', a2', b2', rfl, h2', h3'⟩ := k3
    refine ⟨f l :: l', x :: (a2 ++ a2'), b2', by simp, by simpa using hb _ _ _ _ h2 h2', ?_⟩
    rcases h3' with ⟨a1', b1', rfl, k1', k2', k3'⟩ | ⟨c, a1', b1', rfl, k0', k1', k2', k3', k4'⟩ | ⟨k1', k2'⟩
    · exact .inl ⟨x :: (a1 ++ a1'), b1', by simp, by simpa using hd _ _ _ _ _ _ k1 k1', by have e1 := w1 (a1 ++ a1'); have e2 := w1 (a2 ++ a2'); rw [wt_append] at e1 e2; omega, k3'⟩
    · exact .inr (.inl ⟨c, x :: (a1 ++ a1'), b1', by simp, k0', by simpa using hd _ _ _ _ _ _ k1 k1', k2', by have e1 := w1 (a1 ++ a1'); have e2 := w1 (a2 ++ a2'); rw [wt_append] at e1 e2; omega, k4'⟩)
    · exact .inr (.inr ⟨by have e2 := w1 (a2 ++ a2'); rw [wt_append] at e2; omega, k2'⟩)
  · refine ⟨[f l], x :: (a2 ++ [(0, .endStruct)]), List.replicate n (0, .endStruct), by simp [List.replicate_succ], by simpa using hb _ _ _ _ h2 .nil, ?_⟩
    refine .inr (.inl ⟨c, x :: a1, b1, rfl, k0, hc _ _ _ _ k1 k0, k2, ?_, rfl⟩)
    have e1 := w1 a1; have e2 := w1 (a2 ++ [(0, .endStruct)]); rw [wt_append] at e2; simp only [wt, contentOf, Option.getD_none, List.length_nil] at e1 e2 ⊢; omega
  · refine ⟨[f l], x :: (a2 ++ [(X, .endStruct)]), List.replicate n (X, .endStruct), by simp [List.replicate_succ], by simpa using hb _ _ _ _ h2 .nil, ?_⟩
    exact .inr (.inr ⟨by have e2 := w1 (a2 ++ [(X, .endStruct)]); rw [wt_append] at e2; omega, rfl⟩)

theorem closed_conv (g : Bool) (X : Nat) : ∀ (ts : List HTok) (D : Nat), Closed g X (max D 1) ts (conv g X D ts) := by
  intro ts
  induction ts with
  | nil =>
    intro D
    obtain ⟨n, hn⟩ : ∃ n, max D 1 = n + 1 := ⟨max D 1 - 1, by omega⟩
    rw [conv, hn, List.replicate_succ]
    refine ⟨[], [(if g then 0 else X, .endStruct)], _, rfl, .nil, ?_⟩
    cases g with
    | true => exact .inr (.inl ⟨.input, [], [], rfl, by simp, .input, fun _ => ⟨rfl, rfl⟩, rfl, rfl⟩)
    | false => exact .inr (.inr ⟨by simp [wt], rfl⟩)
  | cons x ts ih =>
    intro D
    obtain ⟨h, k⟩ := x
    obtain ⟨n, hn⟩ : ∃ n, max D 1 = n + 1 := ⟨max D 1 - 1, by omega⟩
    rw [hn]
    have e1 : max (max D 1) 1 = n + 1 := by omega
    have e2 : max (max D 1 + 1) 1 = n + 2 := by omega
    cases k with
    | endDoc =>
      rw [conv]
      exact ⟨[], [(h, .endStruct)], _, rfl, .nil, .inr (.inl ⟨.doc, [(h, .endDoc)], ts, rfl, by simp, .endDoc, (fun h => by cases h), rfl, by rw [show D - 1 = n by omega]⟩)⟩
    | exception m =>
      rw [conv]
      split
      · rename_i hD
        have hi := ih D
        rw [hn] at hi
        have hn1 : decide (1 ≤ n) = true := by simp; omega
        refine hi.cons (f := id) (fun l ts h => .pad h) (fun c l ts h => ?_) (by simp [wt, contentOf])
        rw [hn1] at h ⊢; exact .exception h
      · rename_i hD
        have : n = 0 := by omega
        subst this
        exact ⟨[], [(X, .endStruct)], [], rfl, .nil, .inr (.inr ⟨by simp [wt], rfl⟩)⟩
    | padding =>
      have hi := ih D
      rw [hn] at hi
      exact hi.cons (f := id) (fun l ts h => .pad h) (fun c l ts h => .pad h) rfl
    | int tag k =>
      have hi := ih (max D 1)
      rw [e1] at hi
      exact hi.cons (f := fun l => (tag, .int k) :: l) (fun l ts h => .int h) (fun c l ts h => .int h) rfl
    | blob tag d =>
      have hi := ih (max D 1)
      rw [e1] at hi
      exact hi.cons (f := fun l => (tag, .blob d) :: l) (fun l ts h => .blob h) (fun c l ts h => .blob h) rfl
    | struct tag =>
      have hi := ih (max D 1 + 1)
      rw [e2] at hi
      exact hi.nest (f := fun l => (tag, .struct l)) (fun l fs a b h h' => .struct h h') (fun m c l fs a b h h' => .struct h h') (fun m c l a h h' => .structCut h h')
    | enum tag d =>
      have hi := ih (max D 1 + 1)
      rw [e2] at hi
      exact hi.nest (f := fun l => (tag, .enum d l)) (fun l fs a b h h' => .enum h h') (fun m c l fs a b h h' => .enum h h') (fun m c l a h h' => .enumCut h h')
    | endStruct =>
      have hc : conv g X D ((h, .endStruct) :: ts) = (h, .endStruct) :: conv g X n ts := by
        rw [show n = D - 1 by omega]; rfl
      rw [hc]
      refine ⟨[], [(h, .endStruct)], _, rfl, .nil, .inl ⟨[(h, .endStruct)], ts, rfl, .endStruct, rfl, rfl, ?_⟩⟩
      cases n with
      | zero => trivial
      | succ n => have := ih (n + 1); rwa [show max (n + 1) 1 = n + 1 by omega] at this

theorem NoExc.tail {x : Tok} {ts : List Tok} (h : NoExc (x :: ts)) : NoExc ts := fun m hm => h m (List.mem_cons_of_mem _ hm)
theorem NoExc.left {a b : List Tok} (h : NoExc (a ++ b)) : NoExc a := fun m hm => h m (List.mem_append_left _ hm)
theorem NoExc.right {a b : List Tok} (h : NoExc (a ++ b)) : NoExc b := fun m hm => h m (List.mem_append_right _ hm)

/-- The completed form of a document. -/
theorem Document.conv {g : Bool} {X : Nat} {m : Bool} {c : Close} {l : Fields} {ts : List Tok} (hd : Document m c l ts) : ∀ (D : Nat), (m = true → 2 ≤ D) → ∀ (a1 b1 : List HTok), a1.map (·.2) = ts → (c = .input → g = true ∧ b1 = []) →
    ∃ a2, BodyOf l (a2.map (·.2)) ∧ wt a1 = wt a2 ∧ conv g X D (a1 ++ b1) = a2 ++ (if c = .struct then Fourleaf.conv g X (D - 1) b1 else List.replicate (D - 1) (0, .endStruct)) := by
  have w1 : ∀ (x : HTok) a, wt (x :: a) = wt [x] + wt a := fun x a => wt_append [x] a
  induction hd with
  | endStruct =>
    intro D _ a1 b1 ha _
    obtain ⟨⟨h, k⟩, rfl⟩ : ∃ x, a1 = [x] := by cases a1 with | nil => cases ha | cons x a => cases a with | nil => exact ⟨x, rfl⟩ | cons _ _ => simp at ha
    simp only [List.map_cons, List.map_nil, List.cons.injEq, and_true] at ha
    subst ha
    exact ⟨[(h, .endStruct)], .nil, rfl, rfl⟩
  | endDoc =>
    intro D _ a1 b1 ha _
    obtain ⟨⟨h, k⟩, rfl⟩ : ∃ x, a1 = [x] := by cases a1 with | nil => cases ha | cons x a => cases a with | nil => exact ⟨x, rfl⟩ | cons _ _ => simp at ha
    simp only [List.map_cons, List.map_nil, List.cons.injEq, and_true] at ha
    subst ha
    exact ⟨[(h, .endStruct)], .nil, rfl, rfl⟩
  | input =>
    intro D _ a1 b1 ha hi
    obtain ⟨rfl, rfl⟩ := hi rfl
    have : a1 = [] := by simpa using ha
    subst this
    refine ⟨[(0, .endStruct)], .nil, rfl, ?_⟩
    obtain ⟨n, hn⟩ : ∃ n, max D 1 = n + 1 := ⟨max D 1 - 1, by omega⟩
    simp [Fourleaf.conv, hn, List.replicate_succ]; omega
  | @pad m c fs ts hd ih =>
    intro D hx a1 b1 ha hi
    obtain ⟨⟨h, k⟩, a, rfl, rfl, ha'⟩ := List.map_eq_cons_iff.1 ha; clear ha
    obtain ⟨a2, k1, k2, k3⟩ := ih D hx a b1 ha' hi
    refine ⟨(h, .padding) :: a2, .pad k1, by rw [w1, w1 _ a2, k2], ?_⟩
    show (h, Tok.padding) :: Fourleaf.conv g X D (a ++ b1) = _
    rw [k3]; rfl
  | @exception c fs ts m hd ih =>
    intro D hx a1 b1 ha hi
    obtain ⟨⟨h, k⟩, a, rfl, rfl, ha'⟩ := List.map_eq_cons_iff.1 ha; clear ha
    obtain ⟨a2, k1, k2, k3⟩ := ih D hx a b1 ha' hi
    refine ⟨(h + m.length, .padding) :: a2, .pad k1, by rw [w1, w1 _ a2, k2]; simp [wt, contentOf], ?_⟩
    show (if 2 ≤ D then (h + m.length, Tok.padding) :: Fourleaf.conv g X D (a ++ b1) else _) = _
    rw [if_pos (hx rfl), k3]; rfl
  | @int m c tag n fs ts hd ih =>
    intro D hx a1 b1 ha hi
    obtain ⟨⟨h, k⟩, a, rfl, rfl, ha'⟩ := List.map_eq_cons_iff.1 ha; clear ha
    obtain ⟨a2, k1, k2, k3⟩ := ih (max D 1) (fun h => by have := hx h; omega) a b1 ha' hi
    refine ⟨(h, .int tag n) :: a2, .int k1, by rw [w1, w1 _ a2, k2], ?_⟩
    show (h, Tok.int tag n) :: Fourleaf.conv g X (max D 1) (a ++ b1) = _
    rw [k3, show max D 1 - 1 = D - 1 by omega]; rfl
  | @blob m c tag d fs ts hd ih =>
    intro D hx a1 b1 ha hi
    obtain ⟨⟨h, k⟩, a, rfl, rfl, ha'⟩ := List.map_eq_cons_iff.1 ha; clear ha
    obtain ⟨a2, k1, k2, k3⟩ := ih (max D 1) (fun h => by have := hx h; omega) a b1 ha' hi
    refine ⟨(h, .blob tag d) :: a2, .blob k1, by rw [w1, w1 _ a2, k2], ?_⟩
    show (h, Tok.blob tag d) :: Fourleaf.conv g X (max D 1) (a ++ b1) = _
    rw [k3, show max D 1 - 1 = D - 1 by omega]; rfl
  | @struct m c tag l fs ta tb h1 h2 ih1 ih2 =>
    intro D hx a1 b1 ha hi
    obtain ⟨⟨h, k⟩, a, rfl, rfl, ha'⟩ := List.map_eq_cons_iff.1 ha; clear ha
    obtain ⟨a, b, rfl, rfl, rfl⟩ := List.map_eq_append_iff.1 ha'
    obtain ⟨a2, k1, k2, k3⟩ := ih1 (max D 1 + 1) (fun _ => by omega) a (b ++ b1) rfl (fun h => by cases h)
    obtain ⟨a2', k1', k2', k3'⟩ := ih2 (max D 1) (fun h => by have := hx h; omega) b b1 rfl hi
    refine ⟨(h, .struct tag) :: (a2 ++ a2'), by simpa using BodyOf.struct k1 k1', by rw [w1, w1 _ (a2 ++ a2'), wt_append, wt_append, k2, k2'], ?_⟩
    show (h, Tok.struct tag) :: Fourleaf.conv g X (max D 1 + 1) (a ++ b ++ b1) = _
    rw [List.append_assoc, k3, if_pos rfl, Nat.add_sub_cancel, k3', show max D 1 - 1 = D - 1 by omega]
    simp
  | @structCut m c tag l ts h1 h2 ih =>
    intro D hx a1 b1 ha hi
    obtain ⟨⟨h, k⟩, a, rfl, rfl, ha'⟩ := List.map_eq_cons_iff.1 ha; clear ha
    obtain ⟨a2, k1, k2, k3⟩ := ih (max D 1 + 1) (fun _ => by omega) a b1 ha' hi
    refine ⟨(h, .struct tag) :: (a2 ++ [(0, .endStruct)]), by simpa using BodyOf.struct k1 .nil, by
      rw [w1, w1 _ (a2 ++ _), wt_append, k2]; rfl, ?_⟩
    show (h, Tok.struct tag) :: Fourleaf.conv g X (max D 1 + 1) (a ++ b1) = _
    rw [k3, if_neg h2, if_neg h2, Nat.add_sub_cancel, show max D 1 = (D - 1) + 1 by omega, List.replicate_succ]
    simp
  | @enum m c tag d l fs ta tb h1 h2 ih1 ih2 =>
    intro D hx a1 b1 ha hi
    obtain ⟨⟨h, k⟩, a, rfl, rfl, ha'⟩ := List.map_eq_cons_iff.1 ha; clear ha
    obtain ⟨a, b, rfl, rfl, rfl⟩ := List.map_eq_append_iff.1 ha'
    obtain ⟨a2, k1, k2, k3⟩ := ih1 (max D 1 + 1) (fun _ => by omega) a (b ++ b1) rfl (fun h => by cases h)
    obtain ⟨a2', k1', k2', k3'⟩ := ih2 (max D 1) (fun h => by have := hx h; omega) b b1 rfl hi
    refine ⟨(h, .enum tag d) :: (a2 ++ a2'), by simpa using BodyOf.enum k1 k1', by rw [w1, w1 _ (a2 ++ a2'), wt_append, wt_append, k2, k2'], ?_⟩
    show (h, Tok.enum tag d) :: Fourleaf.conv g X (max D 1 + 1) (a ++ b ++ b1) = _
    rw [List.append_assoc, k3, if_pos rfl, Nat.add_sub_cancel, k3', show max D 1 - 1 = D - 1 by omega]
    simp
  | @enumCut m c tag d l ts h1 h2 ih =>
    intro D hx a1 b1 ha hi
    obtain ⟨⟨h, k⟩, a, rfl, rfl, ha'⟩ := List.map_eq_cons_iff.1 ha; clear ha
    obtain ⟨a2, k1, k2, k3⟩ := ih (max D 1 + 1) (fun _ => by omega) a b1 ha' hi
    refine ⟨(h, .enum tag d) :: (a2 ++ [(0, .endStruct)]), by simpa using BodyOf.enum k1 .nil, by
      rw [w1, w1 _ (a2 ++ _), wt_append, k2]; rfl, ?_⟩
    show (h, Tok.enum tag d) :: Fourleaf.conv g X (max D 1 + 1) (a ++ b1) = _
    rw [k3, if_neg h2, if_neg h2, Nat.add_sub_cancel, show max D 1 = (D - 1) + 1 by omega, List.replicate_succ]
    simp

end Fourleaf
