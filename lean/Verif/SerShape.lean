import Verif.RoundTrip

/-! # The shape of what serialisation writes -/

namespace Fourleaf
open Spec

structure SShape (o : SOps) : Prop where
  body : ∀ t v cs, o.body t v = some cs → ∃ l, BodyOf l (callToks cs)
  field : ∀ t g v cs, o.field t g v = some cs → ∃ vals : List Val, PreOf (vals.map (g, ·)) (callToks cs)
  element : ∀ t g v cs, o.element t g v = some cs → ∃ val, PreOf [(g, val)] (callToks cs)

theorem PreOf.struct {g : Byte} {l : Fields} {ts : List Tok} (h : BodyOf l ts) : PreOf [(g, .struct l)] (.struct g :: ts) := fun _ _ h' => .struct h h'
theorem PreOf.enum {g : Byte} {d : UInt64} {l : Fields} {ts : List Tok} (h : BodyOf l ts) : PreOf [(g, .enum d l)] (.enum g d :: ts) := fun _ _ h' => .enum h h'
theorem PreOf.int {g : Byte} {n : UInt64} : PreOf [(g, .int n)] [.int g n] := fun _ _ h' => .int h'
theorem PreOf.blob {g : Byte} {d : List Byte} : PreOf [(g, .blob d)] [.blob g d] := fun _ _ h' => .blob h'

theorem serAll_shape {f : V → Option (List WCall)} {g : Byte} (h : ∀ v cs, f v = some cs → ∃ val, PreOf [(g, val)] (callToks cs)) :
    ∀ vs cs, serAll f vs = some cs → ∃ vals : List Val, PreOf (vals.map (g, ·)) (callToks cs)
  | [], cs, hc => by cases hc; exact ⟨[], .nil⟩
  | v :: vs, cs, hc => by
    simp only [serAll, Option.bind_eq_some_iff, Option.map_eq_some_iff] at hc
    obtain ⟨a, h1, b, h2, rfl⟩ := hc
    obtain ⟨val, h1⟩ := h v a h1
    obtain ⟨vals, h2⟩ := serAll_shape h vs b h2
    exact ⟨val :: vals, by rw [callToks_append]; exact h1.append h2⟩

/-- Any fields. -/
theorem serAll_shape' {f : V → Option (List WCall)} (h : ∀ v cs, f v = some cs → ∃ l, PreOf l (callToks cs)) :
    ∀ vs cs, serAll f vs = some cs → ∃ l, PreOf l (callToks cs)
  | [], cs, hc => by cases hc; exact ⟨[], .nil⟩
  | v :: vs, cs, hc => by
    simp only [serAll, Option.bind_eq_some_iff, Option.map_eq_some_iff] at hc
    obtain ⟨a, h1, b, h2, rfl⟩ := hc
    obtain ⟨l, h1⟩ := h v a h1
    obtain ⟨l', h2⟩ := serAll_shape' h vs b h2
    exact ⟨l ++ l', by rw [callToks_append]; exact h1.append h2⟩

theorem prim_shape {p : Prim} {g : Byte} {v : V} {cs : List WCall} (h : p.ser g v = some cs) : ∃ val, PreOf [(g, val)] (callToks cs) := by
  unfold Prim.ser at h
  split at h
  · cases h; exact ⟨_, .int⟩
  · cases h; exact ⟨_, .int⟩
  · split at h
    · rename_i k i hk
      cases h
      obtain ⟨n, h1, -⟩ := k.call_toks g hk.1 hk.2
      exact ⟨.int n, by simp only [callToks, List.flatMap_cons, List.flatMap_nil, h1]; exact .int⟩
    · cases h
  · cases h; exact ⟨_, .int⟩
  · cases h; exact ⟨_, .blob⟩
  · cases h; exact ⟨_, .blob⟩
  · rw [Option.map_eq_some_iff] at h; obtain ⟨d, -, rfl⟩ := h; exact ⟨_, .blob⟩
  · cases h

section
variable {o : SOps} (H : SShape o)
include H

theorem serFields_shape : ∀ ds vs r, serFields o ds vs = some r → ∃ l, PreOf l (callToks r.1)
  | [], vs, r, h => by simp only [serFields] at h; cases h; exact ⟨[], .nil⟩
  | _ :: _, [], r, h => by cases h
  | d :: ds, v :: vs, r, h => by
    simp only [serFields, Option.bind_eq_some_iff, Option.map_eq_some_iff] at h
    obtain ⟨a, h1, b, h2, rfl⟩ := h
    obtain ⟨l, h1⟩ := H.field _ _ _ _ h1
    obtain ⟨l', h2⟩ := serFields_shape ds vs b h2
    exact ⟨_, by rw [callToks_append]; exact h1.append h2⟩

theorem macroBodySer_shape {b : Body} {vs : List V} {cs : List WCall} (h : macroBodySer o b vs = some cs) : ∃ l, BodyOf l (callToks cs) := by
  simp only [macroBodySer, Option.bind_eq_some_iff] at h
  obtain ⟨r, h1, h2⟩ := h
  obtain ⟨l, h1⟩ := serFields_shape H _ _ _ h1
  split at h2
  · cases h2; exact ⟨l, by rw [callToks_append]; exact h1.close⟩
  · rw [Option.map_eq_some_iff] at h2
    obtain ⟨c, h3, rfl⟩ := h2
    obtain ⟨l', h3⟩ := H.body _ _ _ h3
    exact ⟨l ++ l', by rw [callToks_append]; exact h1 _ _ h3⟩
  · rw [Option.map_eq_some_iff] at h2
    obtain ⟨c, h3, rfl⟩ := h2
    obtain ⟨l', h3⟩ := H.body _ _ _ h3
    exact ⟨l ++ l', by rw [callToks_append]; exact h1 _ _ h3⟩
  · cases h2

theorem default_shape {t : Ty} {v : V} {cs : List WCall} (h : defaultBodySer o t v = some cs) : ∃ l, BodyOf l (callToks cs) := by
  rw [defaultBodySer, Option.map_eq_some_iff] at h
  obtain ⟨a, h1, rfl⟩ := h
  obtain ⟨vals, h1⟩ := H.field _ _ _ _ h1
  exact ⟨_, by rw [callToks_append]; exact h1.close⟩

theorem wrapped_shape {t : Ty} {g : Byte} {v : V} {cs : List WCall} (h : wrapped o t g v = some cs) : ∃ val, PreOf [(g, val)] (callToks cs) := by
  rw [wrapped, Option.map_eq_some_iff] at h
  obtain ⟨a, h1, rfl⟩ := h
  obtain ⟨vals, h1⟩ := H.field _ _ _ _ h1
  exact ⟨_, by rw [List.cons_append, callToks_cons, callToks_append]; exact .struct h1.close⟩

theorem bodySer_shape (env : Env) (t : Ty) (v : V) (cs : List WCall) (h : bodySer env o t v = some cs) : ∃ l, BodyOf l (callToks cs) := by
  unfold bodySer at h
  split at h
  · exact H.body _ _ _ h
  · split at h
    · rename_i a ha
      cases h
      obtain ⟨l, h1⟩ := serFields_shape H _ _ _ ha
      exact ⟨l, by rw [callToks_append]; exact h1.close⟩
    · cases h
  · rw [Option.map_eq_some_iff] at h
    obtain ⟨a, h1, rfl⟩ := h
    obtain ⟨l, h1⟩ := serAll_shape' (fun v cs hv => by
      unfold serUnknown at hv
      split at hv
      · split at hv
        · obtain ⟨vals, h⟩ := H.field _ _ _ _ hv; exact ⟨_, h⟩
        · cases hv
      · cases hv) _ _ h1
    exact ⟨l, by rw [callToks_append]; exact h1.close⟩
  · split at h
    · exact macroBodySer_shape H h
    · exact default_shape H h
  · cases h
  · cases h
  · exact default_shape H h

theorem structBody_shape {t : Ty} {g : Byte} {v : V} {cs : List WCall} (h : (o.body t v).map (WCall.struct g :: ·) = some cs) :
    ∃ val, PreOf [(g, val)] (callToks cs) := by
  rw [Option.map_eq_some_iff] at h
  obtain ⟨a, h1, rfl⟩ := h
  obtain ⟨l, h1⟩ := H.body _ _ _ h1
  exact ⟨_, .struct h1⟩

omit H in
theorem blob_shape {vs : List V} {g : Byte} {cs : List WCall} (h : ((bytesOf vs).map fun d => [WCall.blobData g d]) = some cs) :
    ∃ val, PreOf [(g, val)] (callToks cs) := by
  rw [Option.map_eq_some_iff] at h
  obtain ⟨d, -, rfl⟩ := h
  exact ⟨_, .blob⟩

theorem elementSer_shape (env : Env) (t : Ty) (g : Byte) (v : V) (cs : List WCall) (h : elementSer env o t g v = some cs) :
    ∃ val, PreOf [(g, val)] (callToks cs) := by
  unfold elementSer at h
  split at h
  · exact prim_shape h
  · exact H.element _ _ _ _ h
  · split at h
    · exact blob_shape h
    · exact wrapped_shape H h
  · split at h
    · exact blob_shape h
    · exact wrapped_shape H h
  · split at h
    · exact blob_shape h
    · exact wrapped_shape H h
  · exact wrapped_shape H h
  · exact wrapped_shape H h
  · exact wrapped_shape H h
  · cases h; exact ⟨_, .struct .nil⟩
  · exact structBody_shape H h
  · exact structBody_shape H h
  · split at h
    · cases h; exact ⟨_, .int⟩
    · cases h
  · exact blob_shape h
  · exact structBody_shape H h
  · split at h
    · rw [Option.map_eq_some_iff] at h
      obtain ⟨a, h1, rfl⟩ := h
      obtain ⟨l, h1⟩ := H.body _ _ _ h1
      exact ⟨_, .enum h1⟩
    · cases h
  · split at h
    · split at h
      · exact H.element _ _ _ _ h
      · cases h
      · exact structBody_shape H h
    · split at h
      · rw [Option.map_eq_some_iff] at h
        obtain ⟨a, h1, rfl⟩ := h
        obtain ⟨l, h1⟩ := macroBodySer_shape H h1
        exact ⟨_, .enum h1⟩
      · split at h
        · rw [Option.map_eq_some_iff] at h
          obtain ⟨a, h1, rfl⟩ := h
          obtain ⟨l, h1⟩ := macroBodySer_shape H h1
          exact ⟨_, .enum h1⟩
        · cases h
    · cases h
  · cases h

theorem fieldSer_shape (t : Ty) (g : Byte) (v : V) (cs : List WCall) (h : fieldSer o t g v = some cs) :
    ∃ vals : List Val, PreOf (vals.map (g, ·)) (callToks cs) := by
  have hb : ∀ {vs : List V}, ((bytesOf vs).map fun d => [WCall.blobData g d]) = some cs → ∃ vals : List Val, PreOf (vals.map (g, ·)) (callToks cs) := by
    intro vs h
    obtain ⟨val, h⟩ := blob_shape h
    exact ⟨[val], h⟩
  unfold fieldSer at h
  split at h
  · exact H.field _ _ _ _ h
  · split at h
    · exact hb h
    · exact serAll_shape (fun v cs => H.element _ _ _ _) _ _ h
  · split at h
    · exact hb h
    · exact serAll_shape (fun v cs => H.element _ _ _ _) _ _ h
  · split at h
    · exact hb h
    · exact serAll_shape (fun v cs => H.element _ _ _ _) _ _ h
  · exact serAll_shape (fun v cs => H.element _ _ _ _) _ _ h
  · exact serAll_shape (fun v cs => H.element _ _ _ _) _ _ h
  · refine serAll_shape (fun v cs hv => ?_) _ _ h
    split at hv
    · simp only [Option.bind_eq_some_iff, Option.map_eq_some_iff] at hv
      obtain ⟨a, h1, b, h2, rfl⟩ := hv
      obtain ⟨l1, h1⟩ := H.field _ _ _ _ h1
      obtain ⟨l2, h2⟩ := H.field _ _ _ _ h2
      exact ⟨.struct _, by rw [List.cons_append, List.cons_append, callToks_cons, callToks_append, callToks_append]; exact .struct (h1.append h2).close⟩
    · cases hv
  all_goals first
    | (cases h; done)
    | (obtain ⟨val, h⟩ := H.element _ _ _ _ h; exact ⟨[val], h⟩)
end

theorem sops_shape (env : Env) : ∀ n, SShape (sops env n)
  | 0 => ⟨nofun, nofun, nofun⟩
  | n + 1 =>
    have ih := sops_shape env n
    ⟨bodySer_shape ih env, fieldSer_shape ih, elementSer_shape ih env⟩

end Fourleaf
