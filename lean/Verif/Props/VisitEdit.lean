import Verif.Lemmas.VisitEdit
import Verif.Props.VisitPath

set_option linter.unusedSimpArgs false

/-!
# The leaves of a visit are places to write to (C92)
-/

namespace Mirror

variable {E : Env}

/-- C92: each leaf a visit sees, say the one that comes after `la` and before `lb`, is at a path, and writing there
changes that one leaf of the visit; unless the leaf belongs to the key of a map's entry. -/
theorem C92_edit_one (hO : OrdLaws E) (hD : DeclsOK E) {fuel t d} (h : describe E fuel t = some d) {x : Obj}
    (hx : HasTy E t x) (hI : Indexable E x) (hK : KeysRead E x) {la lb : List Leaf} {a : Leaf}
    (hv : VisitsAll d x (la ++ a :: lb)) : (∃ p, EditsOne E d x p la a lb) ∨ InMapKey E d x a := by
  have hG := describe_graphOK hD h
  have hx' : HasTy E d.root x := by rw [descriptor_root hD h]; exact hasTy_unbox.mpr hx
  obtain ⟨id, g⟩ := d
  have hw : Walks g id x (la ++ a :: lb) := visitsAll_iff.mp hv
  rcases walked_edit hO hD hG hw hx' hI hK la a lb rfl with ⟨p, u, m, pl, h1, h0, h2, h3, h4, h5, h6⟩ | h
  · refine .inl ⟨p, ?_⟩
    have hat : atPath E x p = some pl.get := by rw [← atMutPath_get, h3]; rfl
    generalize hl : [a] = l at h5
    rcases h2 with ⟨k, rfl⟩ | rfl
    · cases h5 with
      | scalar _ k' _ s hn hs =>
        cases hl
        refine ⟨⟨u, _, pl.get, h1, hat, .inl ⟨k, s, rfl, hs, rfl⟩⟩, pl, h3, ?_, by rintro _ _ ⟨⟩⟩
        rintro _ ⟨⟩
        exact ⟨hs, fun s' => visitsAll_iff.mpr (h6 _ _ rfl (.scalar _ _ _ _ h0 rfl))⟩
      | «opaque» _ _ hn => rw [h0] at hn; cases hn
      | parts _ _ _ _ _ hn hA => rw [h0] at hn; cases hn; cases hA
    · cases h5 with
      | scalar _ k' _ s hn hs => rw [h0] at hn; cases hn
      | «opaque» _ _ hn =>
        cases hl
        refine ⟨⟨u, _, pl.get, h1, hat, .inr ⟨rfl, rfl⟩⟩, pl, h3, by rintro _ ⟨⟩, ?_⟩
        rintro _ _ ⟨⟩
        exact ⟨rfl, h4, fun y' hy' => visitsAll_iff.mpr (h6 _ _ hy'.not_hidden (.opaque _ _ h0))⟩
      | parts _ _ _ _ _ hn hA => rw [h0] at hn; cases hn; cases hA
  · exact .inr h

/-- C92 without maps: every leaf of the visit can be written to on its own. -/
theorem C92_no_maps (hO : OrdLaws E) (hD : DeclsOK E) {fuel t d} (h : describe E fuel t = some d) {x : Obj}
    (hx : HasTy E t x) (hI : Indexable E x) (hm : ∀ p y, atPath E x p = some y → y.kind ≠ .map)
    {la lb : List Leaf} {a : Leaf} (hv : VisitsAll d x (la ++ a :: lb)) : ∃ p, EditsOne E d x p la a lb := by
  rcases C92_edit_one hO hD h hx hI (fun p kt vt kvs hy => absurd rfl (hm p _ hy)) hv with h | h
  · exact h
  · obtain ⟨p, _, _, _, y, k, v, _, _, hy, hkv, _⟩ := h
    exfalso
    have := hm p y hy
    cases y <;> simp [Obj.mapIter, Obj.kind] at hkv this

/-! ## Non-vacuity -/

theorem keysRead_of_everywhere {x : Obj} (hx : x.OK E) (h : x.Everywhere fun o => ∀ kt vt kvs, o = .map kt vt kvs →
    ∀ e ∈ kvs, ∃ w : Value, fromReflect E kt w.toObj = some e.1) : KeysRead E x :=
  fun p _ _ _ hy => (everywhere_atPath p hx h hy).2.here _ _ _ rfl

theorem demoTree_keysRead : KeysRead demoEnv demoTree := by
  refine keysRead_of_everywhere ⟨_, demoTree_hasTy⟩ ?_
  have leaf : ∀ o : Obj, o.parts = [] → (∀ kt vt kvs, o = .map kt vt kvs → kvs = []) →
      o.Everywhere fun o => ∀ kt vt kvs, o = .map kt vt kvs →
        ∀ e ∈ kvs, ∃ w : Value, fromReflect demoEnv kt w.toObj = some e.1 :=
    fun o h1 h2 => .mk _ (fun kt vt kvs e => by rw [h2 _ _ _ e]; simp) fun x hx => by rw [h1] at hx; cases hx
  refine .mk _ (by simp [demoTree]) fun x hx => ?_
  simp [demoTree, Obj.parts, visFields, Obj.isHidden] at hx
  rcases hx with rfl | rfl | rfl
  · exact leaf _ rfl (by simp)
  · refine .mk _ (by simp) fun x hx => ?_
    simp [Obj.parts] at hx
    subst hx
    refine .mk _ (by simp) fun x hx => ?_
    simp [Obj.parts, visFields, Obj.isHidden] at hx
    rcases hx with rfl | rfl | rfl
    · exact leaf _ rfl (by simp)
    · exact leaf _ rfl (by simp)
    · exact leaf _ rfl (by simp)
  · refine .mk _ ?_ fun x hx => ?_
    · rintro _ _ _ ⟨⟩ e he
      simp at he
      rcases he with rfl | rfl
      · exact ⟨.scalar (.string "a"), by cbv⟩
      · exact ⟨.scalar (.string "b"), by cbv⟩
    · simp [Obj.parts] at hx
      rcases hx with rfl | rfl | rfl | rfl <;> exact leaf _ rfl (by simp)

/-- The last leaf of `demoTree` is the value `2` of the entry `"b"`: writing `7` at `.names["b"]` changes it alone. -/
example : ∃ d, describe demoEnv 10 (.named "Tree") = some d ∧ KeysRead demoEnv demoTree ∧
    VisitsAll d demoTree ([.opaque (.nonzero .u8 5) (.nonzero .u8), .opaque (.nonzero .u8 9) (.nonzero .u8),
      .scalar (.string "a"), .scalar (.int .u8 1), .scalar (.string "b")] ++ .scalar (.int .u8 2) :: []) ∧
    (atMutPath demoEnv demoTree [.named "names", .get (.scalar (.string "b"))]).map (fun pl =>
      tryVisit (ε := Empty) d.graph (fun a (s : List Leaf) => (none, s ++ [a])) d.root
        (pl.put (.scalar (.int .u8 7))) []) =
      some (.ok [.opaque (.nonzero .u8 5) (.nonzero .u8), .opaque (.nonzero .u8 9) (.nonzero .u8),
        .scalar (.string "a"), .scalar (.int .u8 1), .scalar (.string "b"), .scalar (.int .u8 7)]) := by
  refine ⟨_, rfl, demoTree_keysRead, by unfold VisitsAll; cbv, by cbv⟩

end Mirror
