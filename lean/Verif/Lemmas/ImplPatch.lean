import Verif.Model.ImplPatch
import Verif.Lemmas.ImplFrom
import Verif.Lemmas.Patch

/-!
# Lemmas about `patch` with hand-written patches
-/

namespace Mirror

/-! ## More steps -/

theorem optAll_mono {α ι : Type} {g g' : ι → Option α} (l : List ι) (h : ∀ x ∈ l, Upto (g x) (g' x)) :
    Upto (optAll (l.map g)) (optAll (l.map g')) := by
  induction l with
  | nil => exact Upto.refl _
  | cons x l ih =>
    have hx := h x (by simp)
    have ih := ih fun y hy => h y (by simp [hy])
    intro r hr
    simp only [List.map_cons] at hr ⊢
    cases hg : g x with
    | none => rw [hg] at hr; cases hr
    | some q =>
      rw [hg] at hr
      rw [hx q hg]
      exact (ih.map _) r hr

theorem Upto.bind {α β : Type} {x y : Option α} (h : Upto x y) {g g' : α → Option β}
    (hg : ∀ q, Upto (g q) (g' q)) : Upto (x.bind g) (y.bind g') := by
  intro r hr
  cases x with
  | none => cases hr
  | some q => rw [h q rfl]; exact hg q r hr

theorem patchNamedA_mono {A : Type} {pat pat' : Obj → A → Option Obj}
    (h : ∀ x a, Upto (pat x a) (pat' x a)) (field : String → Option A) (fs : List (String × Obj)) :
    Upto (patchNamedA pat field fs) (patchNamedA pat' field fs) := by
  refine optAll_mono fs fun p _ => ?_
  split
  · exact Upto.refl _
  · split
    · exact Upto.refl _
    · exact (h _ _).map _

theorem patchPosA_mono {A : Type} {pat pat' : Obj → A → Option Obj}
    (h : ∀ x a, Upto (pat x a) (pat' x a)) (get : Nat → Option A) (fs : List Obj) :
    Upto (patchPosA pat get fs) (patchPosA pat' get fs) := by
  unfold patchPosA
  simp only [List.mapIdx_eq_zipIdx_map]
  refine optAll_mono _ fun p _ => ?_
  split
  · exact Upto.refl _
  · split
    · exact Upto.refl _
    · exact h _ _

theorem patchLoop_mono {A : Type} {pat pat' : Obj → A → Option Obj}
    (h : ∀ x a, Upto (pat x a) (pat' x a)) (get : Nat → Option A) (f f' i : Nat) (xs : List Obj)
    (hf : f ≤ f') : Upto (patchLoop pat get f i xs) (patchLoop pat' get f' i xs) := by
  induction f generalizing f' i xs with
  | zero => intro r hr; cases hr
  | succ f ih =>
    obtain ⟨g, rfl⟩ : ∃ g, f' = g + 1 := ⟨f' - 1, by omega⟩
    simp only [patchLoop]
    split
    · exact Upto.refl _
    · split
      · exact ih _ _ _ (by omega)
      · exact (h _ _).bind fun q => ih _ _ _ (by omega)

theorem patchMapLoop_mono {A : Type} {cmp : Obj → Obj → Ordering} {conv conv' : A → Option (Option Obj)}
    {pat pat' : Obj → A → Option Obj} (hc : ∀ a, Upto (conv a) (conv' a))
    (h : ∀ x a, Upto (pat x a) (pat' x a)) (entries : Nat → Option (A × A)) (f f' i : Nat)
    (m : List (Obj × Obj)) (hf : f ≤ f') :
    Upto (patchMapLoop cmp conv pat entries f i m) (patchMapLoop cmp conv' pat' entries f' i m) := by
  induction f generalizing f' i m with
  | zero => intro r hr; cases hr
  | succ f ih =>
    obtain ⟨g, rfl⟩ : ∃ g, f' = g + 1 := ⟨f' - 1, by omega⟩
    simp only [patchMapLoop]
    split
    · exact Upto.refl _
    · next k w _ =>
      have hk := hc k
      intro r hr
      cases hq : conv k with
      | none => rw [hq] at hr; cases hr
      | some q =>
        rw [hq] at hr
        rw [hk q hq]
        revert r
        cases q with
        | none => exact ih _ _ _ (by omega)
        | some k =>
          dsimp only
          cases bmGet cmp k m with
          | none => exact ih _ _ _ (by omega)
          | some y => exact (h _ _).bind fun q => ih _ _ _ (by omega)

theorem patchVariantA_mono {A : Type} {pat pat' : Obj → A → Option Obj}
    (h : ∀ x a, Upto (pat x a) (pat' x a)) (field : String → Option A) (get : Nat → Option A) (x : Obj) :
    Upto (patchVariantA pat field get x) (patchVariantA pat' field get x) := by
  cases x <;> simp only [patchVariantA] <;> try exact Upto.refl _
  · exact (patchNamedA_mono h _ _).map _
  · exact (patchPosA_mono h _ _).map _

/-- What a patched enum of derived type does with a patch of another type. -/
def SrcImpl.patchRest {A : Type} (S : SrcImpl A) (conv : Ty → A → Option (Option Obj))
    (pat : Obj → A → Option Obj) (n : String) (x : Obj) (a : A) : Option Obj :=
  match S.view a with
  | .enum v _ _ field fieldAt _ =>
    match conv (.named n) a with
    | none => none
    | some (some y) => some y
    | some none =>
      if x.variantName = some v then patchVariantA pat field fieldAt x else some x
  | _ => some x

/-- What a patched enum of derived type does. -/
def SrcImpl.patchDerived {A : Type} (S : SrcImpl A) (E : Env) (conv : Ty → A → Option (Option Obj))
    (pat : Obj → A → Option Obj) (n : String) (x : Obj) (a : A) : Option Obj :=
  match if (E.decl n).any (·.cloneOptOut) then none else S.down a (.named n) with
  | some y => some y
  | none => S.patchRest conv pat n x a

/-- What a patched `EnumValue` does. -/
def SrcImpl.patchDynamic {A : Type} (S : SrcImpl A) (conv : Ty → A → Option (Option Obj))
    (pat : Obj → A → Option Obj) (x : Obj) (a : A) : Option Obj :=
  match S.view a with
  | .enum v _ _ field fieldAt _ =>
    if x.variantName = some v then patchVariantA pat field fieldAt x
    else (conv .enumValue a).map (·.getD x)
  | _ => some x

theorem SrcImpl.patch_derived {A : Type} (S : SrcImpl A) (E : Env) (f : Nat) {x : Obj} {n : String}
    (hk : x.kind = .enum) (ht : x.typeOf = some (.named n)) (a : A) :
    S.patch E (f + 1) x a = S.patchDerived E (S.from E f) (S.patch E f) n x a := by
  cases x <;> simp only [Obj.kind, reduceCtorEq] at hk <;> simp only [SrcImpl.patch, ht] <;> rfl

theorem SrcImpl.patch_dynamic {A : Type} (S : SrcImpl A) (E : Env) (f : Nat) {x : Obj}
    (hk : x.kind = .enum) (ht : x.typeOf = some .enumValue) (a : A) :
    S.patch E (f + 1) x a = S.patchDynamic (S.from E f) (S.patch E f) x a := by
  cases x <;> simp only [Obj.kind, reduceCtorEq] at hk <;> simp only [SrcImpl.patch, ht] <;> rfl

theorem Obj.enum_type {x : Obj} (hk : x.kind = .enum) :
    (∃ n, x.typeOf = some (.named n)) ∨ x.typeOf = some .enumValue := by
  cases x <;> simp only [Obj.kind, reduceCtorEq] at hk
  case enumS tag vn fs => cases tag <;> simp [Obj.typeOf]
  case enumT tag vn fs => cases tag <;> simp [Obj.typeOf]
  case enumU tag vn => cases tag <;> simp [Obj.typeOf]

theorem SrcImpl.patch_mono {A : Type} (S : SrcImpl A) (E : Env) (n m : Nat) (hnm : n ≤ m) :
    ∀ x a, Upto (S.patch E n x a) (S.patch E m x a) := by
  induction n generalizing m with
  | zero => intro x a r hr; cases hr
  | succ n ih =>
    obtain ⟨m, rfl⟩ : ∃ g, m = g + 1 := ⟨m - 1, by omega⟩
    have hm : n ≤ m := by omega
    have h := ih m hm
    have hf : ∀ t a, Upto (S.from E n t a) (S.from E m t a) := fun t a => S.from_mono E n m hm t a
    intro x a
    by_cases hk : x.kind = .enum
    · rcases Obj.enum_type hk with ⟨k, ht⟩ | ht
      · rw [S.patch_derived E n hk ht, S.patch_derived E m hk ht]
        unfold SrcImpl.patchDerived
        split
        · exact Upto.refl _
        · unfold SrcImpl.patchRest
          split
          · intro r hr
            cases hq : S.from E n (.named k) a with
            | none => rw [hq] at hr; cases hr
            | some q =>
              rw [hq] at hr
              rw [hf _ _ q hq]
              revert r
              cases q with
              | some y => exact Upto.refl _
              | none =>
                dsimp only
                split
                · exact patchVariantA_mono h _ _ _
                · exact Upto.refl _
          · exact Upto.refl _
      · rw [S.patch_dynamic E n hk ht, S.patch_dynamic E m hk ht]
        unfold SrcImpl.patchDynamic
        split
        · split
          · exact patchVariantA_mono h _ _ _
          · exact (hf _ _).map _
        · exact Upto.refl _
    · cases x <;> simp only [Obj.kind, reduceCtorEq, not_true_eq_false] at hk <;>
        simp only [SrcImpl.patch]
      case scalar s => exact Upto.refl _
      case nonzero k i => exact (hf _ _).map _
      case struct tag fs =>
        split
        · exact (patchNamedA_mono h _ _).map _
        · exact Upto.refl _
      case tupleStruct tag fs =>
        split
        · exact (patchPosA_mono h _ _).map _
        · exact Upto.refl _
      case tuple tag fs =>
        split
        · exact (patchPosA_mono h _ _).map _
        · exact Upto.refl _
      case vec t xs =>
        split
        · exact (patchLoop_mono h _ n m 0 _ hm).map _
        · exact Upto.refl _
      case array t xs =>
        split
        · exact (patchLoop_mono h _ n m 0 _ hm).map _
        · exact Upto.refl _
      case map kt vt kvs =>
        split
        · exact (patchMapLoop_mono (hf kt) h _ n m 0 _ hm).map _
        · exact Upto.refl _
      case hidden d => exact Upto.refl _


/-! ## The modelled types as patches -/

theorem patchNamedA_obj (E : Env) {pat : Obj → Obj → Option Obj} {v : Obj} (fs : List (String × Obj))
    (h : ∀ p ∈ fs, ∀ w, v.field p.1 = some w → pat p.2 w = some (patch E p.2 w)) :
    patchNamedA pat v.field fs = some (patchNamed E v fs) := by
  refine optAll_map_some (l := fs) fun p hp => ?_
  split
  · next hh => rw [patchO_of_hidden E hh]
  · cases hf : v.field p.1 with
    | none => rfl
    | some w => dsimp only; rw [h p hp w hf]; rfl

theorem patchPosA_obj (E : Env) {pat : Obj → Obj → Option Obj} {v : Obj} (fs : List Obj)
    (h : ∀ p ∈ fs.zipIdx, ∀ w, v.fieldAt p.2 = some w → pat p.1 w = some (patch E p.1 w)) :
    patchPosA pat v.fieldAt fs = some (patchPos E v fs) := by
  unfold patchPosA patchPos
  simp only [List.mapIdx_eq_zipIdx_map]
  refine optAll_map_some fun p hp => ?_
  split
  · next hh => rw [patchO_of_hidden E hh]
  · cases hf : v.fieldAt p.2 with
    | none => rfl
    | some w => exact h p hp w hf

theorem patchLoop_list {A : Type} {pat : Obj → A → Option Obj} {g : Obj → A → Obj} {get : Nat → Option A}
    (ws : List A) (i : Nat) (xs : List Obj) (hget : ∀ j, j ≤ ws.length → get (i + j) = ws[j]?)
    (hp : ∀ j w y, ws[j]? = some w → xs[i + j]? = some y → pat y w = some (g y w)) :
    patchLoop pat get (ws.length + 1) i xs = some (xs.mapIdx fun k y =>
      if k < i then y else match ws[k - i]? with
        | none => y
        | some w => g y w) := by
  induction ws generalizing i xs with
  | nil =>
    have h0 := hget 0 (Nat.le_refl _)
    simp only [Nat.add_zero, List.getElem?_nil] at h0
    simp only [List.length_nil, patchLoop, h0, List.getElem?_nil, ite_self, Option.some.injEq]
    exact (List.mapIdx_eq_zipIdx_map.trans (by simp)).symm
  | cons w ws ih =>
    have h0 := hget 0 (Nat.zero_le _)
    simp only [Nat.add_zero, List.getElem?_cons_zero] at h0
    have hget' : ∀ j, j ≤ ws.length → get (i + 1 + j) = ws[j]? := fun j hj => by
      have := hget (j + 1) (by simp; omega)
      rw [List.getElem?_cons_succ] at this
      rw [← this]; congr 1; omega
    rw [List.length_cons, patchLoop, h0]
    dsimp only
    cases hx : xs[i]? with
    | none =>
      dsimp only
      rw [ih (i + 1) xs hget' fun j w y hw hy => hp (j + 1) w y (by simpa using hw)
        (by rw [← hy]; congr 1; omega)]
      congr 1
      apply List.ext_getElem?
      intro k
      simp only [List.getElem?_mapIdx]
      have hlen : xs.length ≤ i := List.getElem?_eq_none_iff.mp hx
      by_cases hk : k < i
      · simp [hk, show k < i + 1 by omega]
      · rw [show xs[k]? = none from List.getElem?_eq_none (by omega)]; rfl
    | some y =>
      dsimp only
      rw [hp 0 w y rfl (by simpa using hx), Option.bind_some]
      rw [ih (i + 1) (xs.set i (g y w)) hget' fun j w' y' hw hy => hp (j + 1) w' y' (by simpa using hw)
        (by rw [List.getElem?_set_ne (by omega)] at hy; rw [← hy]; congr 1; omega)]
      congr 1
      apply List.ext_getElem?
      intro k
      simp only [List.getElem?_mapIdx]
      rcases Nat.lt_trichotomy k i with hk | hk | hk
      · rw [List.getElem?_set_ne (by omega)]
        simp [hk, show k < i + 1 by omega]
      · subst hk
        have : k < xs.length := (List.getElem?_eq_some_iff.mp hx).1
        rw [List.getElem?_set_self this, hx]
        simp
      · rw [List.getElem?_set_ne (by omega)]
        obtain ⟨d, rfl⟩ : ∃ d, k = i + 1 + d := ⟨k - (i + 1), by omega⟩
        simp [show ¬ (i + 1 + d < i) by omega, show ¬ (i + 1 + d < i + 1) by omega,
          show i + 1 + d - i = d + 1 by omega]

theorem bmModify_get {κ α : Type} {cmp : κ → κ → Ordering} {k : κ} {m : List (κ × α)} (f : α → α) :
    (bmGet cmp k m = none → bmModify cmp k f m = m) ∧
      ∀ y, bmGet cmp k m = some y → bmModify cmp k (fun _ => f y) m = bmModify cmp k f m := by
  induction m with
  | nil => exact ⟨fun _ => rfl, fun y h => by cases h⟩
  | cons p m ih =>
    obtain ⟨k', v'⟩ := p
    simp only [bmGet, bmModify]
    by_cases hc : cmp k k' = .eq
    · simp only [hc, if_true]
      exact ⟨fun h => (by cases h), fun y h => by cases h; rfl⟩
    · simp only [hc, if_false]
      exact ⟨fun h => by rw [ih.1 h], fun y h => by rw [ih.2 y h]⟩

theorem patchMapLoop_list (E : Env) (kt : Ty) {entries : Nat → Option (Obj × Obj)} (ws : List (Obj × Obj))
    (hk : ∀ p ∈ ws, ∃ n, (Obj.src E).from E n kt p.1 = some (fromReflect E kt p.1))
    (hv : ∀ p ∈ ws, ∀ y, ∃ n, (Obj.src E).patch E n y p.2 = some (patch E y p.2))
    (i : Nat) (m : List (Obj × Obj)) (he : ∀ j, j ≤ ws.length → entries (i + j) = ws[j]?) :
    ∃ n, patchMapLoop (E.kcmp kt) ((Obj.src E).from E n kt) ((Obj.src E).patch E n) entries n i m =
      some (ws.foldl (patchEntry E kt) m) := by
  induction ws generalizing i m with
  | nil =>
    have h0 := he 0 (Nat.le_refl _)
    simp only [Nat.add_zero, List.getElem?_nil] at h0
    exact ⟨1, by simp only [patchMapLoop, h0]; rfl⟩
  | cons p ws ih =>
    have h0 := he 0 (Nat.zero_le _)
    simp only [Nat.add_zero, List.getElem?_cons_zero] at h0
    have he' : ∀ j, j ≤ ws.length → entries (i + 1 + j) = ws[j]? := fun j hj => by
      have := he (j + 1) (by simp; omega)
      rw [List.getElem?_cons_succ] at this
      rw [← this]; congr 1; omega
    obtain ⟨n1, h1⟩ := hk p (by simp)
    obtain ⟨n2, h2⟩ := ih (fun p hp => hk p (by simp [hp])) (fun p hp => hv p (by simp [hp])) (i + 1)
      (patchEntry E kt m p) he'
    have up : ∀ n f, n2 ≤ n → n2 ≤ f → patchMapLoop (E.kcmp kt) ((Obj.src E).from E n kt)
        ((Obj.src E).patch E n) entries f (i + 1) (patchEntry E kt m p) =
          some (ws.foldl (patchEntry E kt) (patchEntry E kt m p)) := fun n f hn hf =>
      patchMapLoop_mono (fun a => (Obj.src E).from_mono E _ _ hn kt a)
        (fun x a => (Obj.src E).patch_mono E _ _ hn x a) entries n2 f (i + 1) _ hf _ h2
    rw [List.foldl_cons]
    have fin : ∀ n, n1 ≤ n → n2 ≤ n → (fromReflect E kt p.1 = none ∨ ∃ k, fromReflect E kt p.1 = some k ∧
        bmGet (E.kcmp kt) k m = none) →
        patchMapLoop (E.kcmp kt) ((Obj.src E).from E (n + 1) kt) ((Obj.src E).patch E (n + 1)) entries
          (n + 1) i m = some (ws.foldl (patchEntry E kt) (patchEntry E kt m p)) := by
      intro n hn1 hn2 hc
      rw [← up (n + 1) n (by omega) hn2]
      rw [patchMapLoop, h0]
      dsimp only
      rw [(Obj.src E).from_mono E n1 (n + 1) (by omega) kt p.1 _ h1]
      rcases hc with hc | ⟨k, hc, hg⟩
      · rw [patchEntry, hc]
      · rw [patchEntry, hc]
        dsimp only
        rw [hg, (bmModify_get _).1 hg]
    cases hc : fromReflect E kt p.1 with
    | none => exact ⟨_, fin (max n1 n2) (Nat.le_max_left _ _) (Nat.le_max_right _ _) (Or.inl hc)⟩
    | some k =>
      cases hg : bmGet (E.kcmp kt) k m with
      | none =>
        exact ⟨_, fin (max n1 n2) (Nat.le_max_left _ _) (Nat.le_max_right _ _) (Or.inr ⟨k, hc, hg⟩)⟩
      | some y =>
        obtain ⟨n3, h3⟩ := hv p (by simp) y
        have l1 : n1 ≤ max n1 (max n2 n3) + 1 := by omega
        have l2 : n2 ≤ max n1 (max n2 n3) := by omega
        have l3 : n3 ≤ max n1 (max n2 n3) + 1 := by omega
        refine ⟨max n1 (max n2 n3) + 1, ?_⟩
        rw [← up (max n1 (max n2 n3) + 1) (max n1 (max n2 n3)) (by omega) l2]
        generalize max n1 (max n2 n3) = n at *
        rw [patchMapLoop, h0]
        dsimp only
        rw [(Obj.src E).from_mono E n1 (n + 1) l1 kt p.1 _ h1, hc]
        dsimp only
        rw [hg]
        dsimp only
        rw [(Obj.src E).patch_mono E n3 (n + 1) l3 y p.2 _ h3, Option.bind_some]
        rw [patchEntry, hc]
        dsimp only
        rw [(bmModify_get (fun y => patch E y p.2)).2 y hg]


theorem Obj.src_patchNamed (E : Env) {v : Obj} (fs : List (String × Obj))
    (ih : ∀ w, sizeOf w < sizeOf v → ∀ x, ∃ n, (Obj.src E).patch E n x w = some (patch E x w)) :
    ∃ n, ∀ m, n ≤ m → patchNamedA ((Obj.src E).patch E m) v.field fs = some (patchNamed E v fs) := by
  obtain ⟨n, hn⟩ := bound_mem (ι := String × Obj)
    (P := fun p n => ∀ w, v.field p.1 = some w → (Obj.src E).patch E n p.2 w = some (patch E p.2 w))
    (fun p n n' hn h w hw => (Obj.src E).patch_mono E n n' hn _ _ _ (h w hw)) fs
    (fun p _ => by
      cases hf : v.field p.1 with
      | none => exact ⟨0, fun w hw => by cases hw⟩
      | some w =>
        obtain ⟨n, hn⟩ := ih w (Obj.field_size hf) p.2
        exact ⟨n, fun w' hw => by cases hw; exact hn⟩)
  exact ⟨n, fun m hm => patchNamedA_obj E fs fun p hp w hw =>
    (Obj.src E).patch_mono E n m hm _ _ _ (hn p hp w hw)⟩

theorem Obj.src_patchPos (E : Env) {v : Obj} (fs : List Obj)
    (ih : ∀ w, sizeOf w < sizeOf v → ∀ x, ∃ n, (Obj.src E).patch E n x w = some (patch E x w)) :
    ∃ n, ∀ p ∈ fs.zipIdx, ∀ w, v.fieldAt p.2 = some w →
      (Obj.src E).patch E n p.1 w = some (patch E p.1 w) := by
  exact bound_mem (ι := Obj × Nat)
    (P := fun p n => ∀ w, v.fieldAt p.2 = some w → (Obj.src E).patch E n p.1 w = some (patch E p.1 w))
    (fun p n n' hn h w hw => (Obj.src E).patch_mono E n n' hn _ _ _ (h w hw)) fs.zipIdx
    (fun p _ => by
      cases hf : v.fieldAt p.2 with
      | none => exact ⟨0, fun w hw => by cases hw⟩
      | some w =>
        obtain ⟨n, hn⟩ := ih w (Obj.fieldAt_size hf) p.1
        exact ⟨n, fun w' hw => by cases hw; exact hn⟩)

theorem Obj.src_patchPosA (E : Env) {v : Obj} (fs : List Obj)
    (ih : ∀ w, sizeOf w < sizeOf v → ∀ x, ∃ n, (Obj.src E).patch E n x w = some (patch E x w)) :
    ∃ n, ∀ m, n ≤ m → patchPosA ((Obj.src E).patch E m) v.fieldAt fs = some (patchPos E v fs) := by
  obtain ⟨n, hn⟩ := Obj.src_patchPos E fs ih
  exact ⟨n, fun m hm => patchPosA_obj E fs fun p hp w hw =>
    (Obj.src E).patch_mono E n m hm _ _ _ (hn p hp w hw)⟩

theorem Obj.src_patchLoop (E : Env) {v : Obj} {ws : List Obj} (fs : List Obj) (hv : v.fieldAt = fun i => ws[i]?)
    (ih : ∀ w, sizeOf w < sizeOf v → ∀ x, ∃ n, (Obj.src E).patch E n x w = some (patch E x w)) :
    ∃ n, patchLoop ((Obj.src E).patch E n) v.fieldAt n 0 fs = some (patchPos E v fs) := by
  obtain ⟨n, hn⟩ := Obj.src_patchPos E fs ih
  have h := patchLoop_list (pat := (Obj.src E).patch E n) (g := patch E) (get := v.fieldAt) ws 0 fs
    (fun j _ => by rw [hv, Nat.zero_add]) (fun j w y hw hy => by
      rw [Nat.zero_add] at hy
      exact hn (y, j) (List.mem_zipIdx_iff_getElem?.mpr hy) w (by rw [hv]; exact hw))
  refine ⟨max n (ws.length + 1), ?_⟩
  rw [patchLoop_mono (fun x a => (Obj.src E).patch_mono E n _ (Nat.le_max_left _ _) x a) v.fieldAt _ _ 0 fs
    (Nat.le_max_right n _) _ h]
  congr 1
  unfold patchPos
  congr 1
  funext k y
  simp only [Nat.not_lt_zero, if_false, Nat.sub_zero, hv]
  cases ws[k]? <;> rfl

theorem Obj.src_patchVariant (E : Env) {v : Obj} (x : Obj)
    (ih : ∀ w, sizeOf w < sizeOf v → ∀ x, ∃ n, (Obj.src E).patch E n x w = some (patch E x w)) :
    ∃ n, ∀ m, n ≤ m →
      patchVariantA ((Obj.src E).patch E m) v.field v.fieldAt x = some (patchFields E v x) := by
  cases x
  case enumS tag vn fs =>
    obtain ⟨n, hn⟩ := Obj.src_patchNamed E fs ih
    exact ⟨n, fun m hm => by simp only [patchVariantA, hn m hm]; rfl⟩
  case enumT tag vn fs =>
    obtain ⟨n, hn⟩ := Obj.src_patchPosA E fs ih
    exact ⟨n, fun m hm => by simp only [patchVariantA, hn m hm]; rfl⟩
  all_goals exact ⟨0, fun m _ => rfl⟩

theorem Obj.src_view_enum (E : Env) {v : Obj} (hk : v.kind = .enum) :
    ∃ vn k, v.variantName = some vn ∧
      (Obj.src E).view v = .enum vn k v.fieldsLen v.field v.fieldAt v.nameAt := by
  cases v <;> simp only [Obj.kind, reduceCtorEq] at hk
  · exact ⟨_, _, rfl, rfl⟩
  · exact ⟨_, _, rfl, rfl⟩
  · exact ⟨_, _, rfl, rfl⟩

theorem Obj.src_patch_steps (E : Env) (v : Obj) :
    ∀ x, ∃ n, (Obj.src E).patch E n x v = some (patch E x v) := by
  induction v using Obj.ind with
  | _ v ih =>
  intro x
  by_cases hk : x.kind = .enum
  · rcases Obj.enum_type hk with ⟨k, ht⟩ | ht
    · rw [patch_enum_derived E hk ht]
      obtain ⟨n1, h1⟩ := Obj.src_from_steps E v (.named k)
      obtain ⟨n2, h2⟩ := Obj.src_patchVariant E x ih
      refine ⟨max n1 n2 + 1, ?_⟩
      rw [(Obj.src E).patch_derived E _ hk ht]
      unfold SrcImpl.patchDerived
      rw [Obj.src_down]
      have hrest : (Obj.src E).patchRest ((Obj.src E).from E (max n1 n2)) ((Obj.src E).patch E (max n1 n2))
          k x v = some (if v.kind = .enum then
              match fromReflect E (.named k) v with
              | some y => y
              | none => if v.variantName = x.variantName then patchFields E v x else x
            else x) := by
        unfold SrcImpl.patchRest
        rw [(Obj.src E).from_mono E n1 _ (Nat.le_max_left _ _) _ _ _ h1]
        by_cases hv : v.kind = .enum
        · obtain ⟨vn, kk, hvn, hview⟩ := Obj.src_view_enum E hv
          rw [hview, if_pos hv]
          dsimp only
          cases fromReflect E (.named k) v with
          | some y => rfl
          | none =>
            dsimp only
            rw [h2 _ (Nat.le_max_right _ _), hvn]
            by_cases he : x.variantName = some vn
            · rw [if_pos he, if_pos he.symm]
            · rw [if_neg he, if_neg fun h => he h.symm]
        · rw [if_neg hv]
          cases v <;> first | rfl | (exact absurd rfl hv)
      cases (E.decl k).any (·.cloneOptOut) with
      | true =>
        simp only [if_true, Bool.not_true, Bool.and_false, Bool.false_eq_true, if_false]
        exact hrest
      | false =>
        simp only [Bool.false_eq_true, if_false, Bool.not_false, Bool.and_true]
        by_cases hty : v.isTy (.named k) = true
        · simp only [hty, if_true]
        · rw [if_neg hty, if_neg hty]
          exact hrest
    · rw [patch_enum_dyn E hk ht]
      obtain ⟨n1, h1⟩ := Obj.src_from_steps E v .enumValue
      obtain ⟨n2, h2⟩ := Obj.src_patchVariant E x ih
      refine ⟨max n1 n2 + 1, ?_⟩
      rw [(Obj.src E).patch_dynamic E _ hk ht]
      unfold SrcImpl.patchDynamic
      rw [(Obj.src E).from_mono E n1 _ (Nat.le_max_left _ _) _ _ _ h1]
      by_cases hv : v.kind = .enum
      · obtain ⟨vn, kk, hvn, hview⟩ := Obj.src_view_enum E hv
        rw [hview, if_pos hv]
        dsimp only
        rw [h2 _ (Nat.le_max_right _ _), hvn]
        by_cases he : x.variantName = some vn
        · rw [if_pos he, if_pos he.symm]
        · rw [if_neg he, if_neg fun h => he h.symm]; rfl
      · rw [if_neg hv]
        cases v <;> first | rfl | (exact absurd rfl hv)
  · cases x <;> simp only [Obj.kind, reduceCtorEq, not_true_eq_false] at hk
    case scalar s =>
      refine ⟨1, ?_⟩
      rw [patch_scalar]
      simp only [SrcImpl.patch, Obj.src_down]
      split <;> rfl
    case nonzero k i =>
      obtain ⟨n, hn⟩ := Obj.src_from_steps E v (.nonzero k)
      refine ⟨n + 1, ?_⟩
      rw [patch_nonzero]
      simp only [SrcImpl.patch, hn]
      rfl
    case struct tag fs =>
      rw [patch_struct]
      by_cases hv : v.kind = .struct
      · cases v <;> simp only [Obj.kind, reduceCtorEq] at hv
        obtain ⟨n, hn⟩ := Obj.src_patchNamed E fs ih
        refine ⟨n + 1, ?_⟩
        simp only [SrcImpl.patch]
        show Option.map _ (patchNamedA _ (Obj.field _) fs) = _
        rw [hn n (Nat.le_refl _)]
        rfl
      · exact ⟨1, by rw [if_neg hv]; cases v <;> first | rfl | (exact absurd rfl hv)⟩
    case tupleStruct tag fs =>
      rw [patch_tupleStruct]
      by_cases hv : v.kind = .tupleStruct
      · cases v <;> simp only [Obj.kind, reduceCtorEq] at hv
        obtain ⟨n, hn⟩ := Obj.src_patchPosA E fs ih
        refine ⟨n + 1, ?_⟩
        simp only [SrcImpl.patch]
        show Option.map _ (patchPosA _ (Obj.fieldAt _) fs) = _
        rw [hn n (Nat.le_refl _)]
        rfl
      · exact ⟨1, by rw [if_neg hv]; cases v <;> first | rfl | (exact absurd rfl hv)⟩
    case tuple tag fs =>
      rw [patch_tuple]
      by_cases hv : v.kind = .tuple
      · cases v <;> simp only [Obj.kind, reduceCtorEq] at hv
        obtain ⟨n, hn⟩ := Obj.src_patchPosA E fs ih
        refine ⟨n + 1, ?_⟩
        simp only [SrcImpl.patch]
        show Option.map _ (patchPosA _ (Obj.fieldAt _) fs) = _
        rw [hn n (Nat.le_refl _)]
        rfl
      · exact ⟨1, by rw [if_neg hv]; cases v <;> first | rfl | (exact absurd rfl hv)⟩
    case vec t fs =>
      rw [patch_vec]
      by_cases hv : v.kind = .list
      · cases v <;> simp only [Obj.kind, reduceCtorEq] at hv
        case vec u ws =>
        obtain ⟨n, hn⟩ := Obj.src_patchLoop E (v := .vec u ws) (ws := ws) fs rfl ih
        refine ⟨n + 1, ?_⟩
        simp only [SrcImpl.patch]
        show Option.map _ (patchLoop _ (Obj.fieldAt _) n 0 fs) = _
        rw [hn]
        rfl
      · exact ⟨1, by rw [if_neg hv]; cases v <;> first | rfl | (exact absurd rfl hv)⟩
    case array t fs =>
      rw [patch_array]
      by_cases hv : v.kind = .array
      · cases v <;> simp only [Obj.kind, reduceCtorEq] at hv
        case array u ws =>
        obtain ⟨n, hn⟩ := Obj.src_patchLoop E (v := .array u ws) (ws := ws) fs rfl ih
        refine ⟨n + 1, ?_⟩
        simp only [SrcImpl.patch]
        show Option.map _ (patchLoop _ (Obj.fieldAt _) n 0 fs) = _
        rw [hn]
        rfl
      · exact ⟨1, by rw [if_neg hv]; cases v <;> first | rfl | (exact absurd rfl hv)⟩
    case map kt vt kvs =>
      by_cases hv : v.kind = .map
      · cases v <;> simp only [Obj.kind, reduceCtorEq] at hv
        case map u w new =>
        rw [patch_map]
        obtain ⟨n, hn⟩ := patchMapLoop_list E kt (entries := (new[·]?)) new
          (fun p _ => Obj.src_from_steps E p.1 kt)
          (fun p hp => ih p.2 (by have := sizeOf_snd_lt_of_mem hp; simp; omega)) 0 kvs
          (fun j _ => by rw [Nat.zero_add])
        refine ⟨n + 1, ?_⟩
        simp only [SrcImpl.patch]
        show Option.map _ (patchMapLoop _ _ _ (new[·]?) n 0 kvs) = _
        rw [hn]
        rfl
      · exact ⟨1, by rw [patch_map_other E _ _ _ hv]; cases v <;> first | rfl | (exact absurd rfl hv)⟩
    case hidden d => exact ⟨1, by rw [patch_hidden]; rfl⟩


/-! ## Patches that look alike -/

theorem patchNamedA_same {A B : Type} {R : A → B → Prop} {pat : Obj → A → Option Obj}
    {pat' : Obj → B → Option Obj} (hp : ∀ x a b, R a b → pat x a = pat' x b) {field : String → Option A}
    {field' : String → Option B} (hf : ∀ n, Option.Rel R (field n) (field' n)) (fs : List (String × Obj)) :
    patchNamedA pat field fs = patchNamedA pat' field' fs := by
  unfold patchNamedA
  congr 1
  refine List.map_congr_left fun p _ => ?_
  split
  · rfl
  · have := hf p.1
    revert this
    generalize field p.1 = x
    generalize field' p.1 = y
    intro hxy
    cases hxy with
    | none => rfl
    | some hab => dsimp only; rw [hp _ _ _ hab]

theorem patchPosA_same {A B : Type} {R : A → B → Prop} {pat : Obj → A → Option Obj}
    {pat' : Obj → B → Option Obj} (hp : ∀ x a b, R a b → pat x a = pat' x b) {get : Nat → Option A}
    {get' : Nat → Option B} (hf : ∀ n, Option.Rel R (get n) (get' n)) (fs : List Obj) :
    patchPosA pat get fs = patchPosA pat' get' fs := by
  unfold patchPosA
  congr 1
  simp only [List.mapIdx_eq_zipIdx_map]
  refine List.map_congr_left fun p _ => ?_
  split
  · rfl
  · have := hf p.2
    revert this
    generalize get p.2 = x
    generalize get' p.2 = y
    intro hxy
    cases hxy with
    | none => rfl
    | some hab => exact hp _ _ _ hab

theorem patchLoop_same {A B : Type} {R : A → B → Prop} {pat : Obj → A → Option Obj}
    {pat' : Obj → B → Option Obj} (hp : ∀ x a b, R a b → pat x a = pat' x b) {get : Nat → Option A}
    {get' : Nat → Option B} (hf : ∀ n, Option.Rel R (get n) (get' n)) (n i : Nat) (xs : List Obj) :
    patchLoop pat get n i xs = patchLoop pat' get' n i xs := by
  induction n generalizing i xs with
  | zero => rfl
  | succ n ih =>
    simp only [patchLoop]
    have := hf i
    revert this
    generalize get i = x
    generalize get' i = y
    intro hxy
    cases hxy with
    | none => rfl
    | some hab =>
      dsimp only
      cases xs[i]? with
      | none => exact ih _ _
      | some y => dsimp only; rw [hp _ _ _ hab]; congr 1; funext q; exact ih _ _

theorem patchMapLoop_same {A B : Type} {R : A → B → Prop} {cmp : Obj → Obj → Ordering}
    {conv : A → Option (Option Obj)} {conv' : B → Option (Option Obj)} {pat : Obj → A → Option Obj}
    {pat' : Obj → B → Option Obj} (hc : ∀ a b, R a b → conv a = conv' b)
    (hp : ∀ x a b, R a b → pat x a = pat' x b) {entries : Nat → Option (A × A)}
    {entries' : Nat → Option (B × B)}
    (hf : ∀ i, Option.Rel (fun p q => R p.1 q.1 ∧ R p.2 q.2) (entries i) (entries' i)) (n i : Nat)
    (m : List (Obj × Obj)) :
    patchMapLoop cmp conv pat entries n i m = patchMapLoop cmp conv' pat' entries' n i m := by
  induction n generalizing i m with
  | zero => rfl
  | succ n ih =>
    simp only [patchMapLoop]
    have := hf i
    revert this
    generalize entries i = x
    generalize entries' i = y
    intro hxy
    cases hxy with
    | none => rfl
    | some hab =>
      dsimp only
      rw [hc _ _ hab.1]
      split
      · rfl
      · exact ih _ _
      · split
        · exact ih _ _
        · rw [hp _ _ _ hab.2]; congr 1; funext q; exact ih _ _

theorem patchVariantA_same {A B : Type} {R : A → B → Prop} {pat : Obj → A → Option Obj}
    {pat' : Obj → B → Option Obj} (hp : ∀ x a b, R a b → pat x a = pat' x b) {field : String → Option A}
    {field' : String → Option B} (hf : ∀ n, Option.Rel R (field n) (field' n)) {get : Nat → Option A}
    {get' : Nat → Option B} (hg : ∀ n, Option.Rel R (get n) (get' n)) (x : Obj) :
    patchVariantA pat field get x = patchVariantA pat' field' get' x := by
  cases x <;> simp only [patchVariantA]
  · rw [patchNamedA_same hp hf]
  · rw [patchPosA_same hp hg]

theorem SrcImpl.patch_same {A B : Type} {S : SrcImpl A} {T : SrcImpl B} {R : A → B → Prop}
    (h : S.Alike T R) (E : Env) (n : Nat) :
    ∀ x a b, S.Looks T R a b → (x.kind = .enum → ∀ m, S.down a (.named m) = T.down b (.named m)) →
      S.patch E n x a = T.patch E n x b := by
  induction n with
  | zero => intros; rfl
  | succ n ih =>
    intro x a b hl hx
    have hp : ∀ x a b, R a b → S.patch E n x a = T.patch E n x b := fun x a b hab =>
      ih x a b (h.looks hab) fun _ m => h.down hab _
    have hc : ∀ t a b, R a b → S.from E n t a = T.from E n t b := fun t a b hab =>
      from_same h E n t a b (h.looks hab)
    have hv := hl.view
    by_cases hk : x.kind = .enum
    · rcases Obj.enum_type hk with ⟨k, ht⟩ | ht
      · rw [S.patch_derived E n hk ht, T.patch_derived E n hk ht]
        unfold SrcImpl.patchDerived
        rw [hx hk k]
        split
        · rfl
        · unfold SrcImpl.patchRest
          rw [from_same h E n _ a b hl]
          revert hv
          generalize S.view a = v
          generalize T.view b = w
          intro hv
          cases hv <;> try rfl
          case enum hf hg =>
            dsimp only
            split
            · rfl
            · rfl
            · split
              · exact patchVariantA_same hp hf hg x
              · rfl
      · rw [S.patch_dynamic E n hk ht, T.patch_dynamic E n hk ht]
        unfold SrcImpl.patchDynamic
        rw [from_same h E n _ a b hl]
        revert hv
        generalize S.view a = v
        generalize T.view b = w
        intro hv
        cases hv <;> try rfl
        case enum hf hg =>
          dsimp only
          split
          · exact patchVariantA_same hp hf hg x
          · rfl
    · cases x <;> simp only [Obj.kind, reduceCtorEq, not_true_eq_false] at hk <;>
        simp only [SrcImpl.patch]
      case scalar s => rw [hl.scalar]
      case nonzero k i => rw [from_same h E n _ a b hl]
      all_goals
        revert hv
        generalize S.view a = v
        generalize T.view b = w
        intro hv
        cases hv <;> try rfl
      case struct.struct hf hg => dsimp only; rw [patchNamedA_same hp hf]
      case tupleStruct.tupleStruct hf => dsimp only; rw [patchPosA_same hp hf]
      case tuple.tuple hf => dsimp only; rw [patchPosA_same hp hf]
      case array.array hf => dsimp only; rw [patchLoop_same hp hf]
      case vec.list hf => dsimp only; rw [patchLoop_same hp hf]
      case map.map hf => dsimp only; rw [patchMapLoop_same (hc _) hp hf]


/-! ## What the loops leave -/

theorem optAll_some_iff₂ {α : Type} (l : List (Option α)) (r : List α) :
    optAll l = some r ↔ List.Forall₂ (fun q x => q = some x) l r := by
  rw [optAll_eq_some]
  constructor
  · rintro rfl
    rw [List.forall₂_map_left_iff]
    exact List.forall₂_same.mpr fun x _ => rfl
  · intro h
    induction h with
    | nil => rfl
    | cons hq _ ih => rw [hq, ih]; rfl

/-- Element `j` of what the loop leaves, if the patch ends at `k`. -/
def PatchedTo {A : Type} (pat : Obj → A → Option Obj) (get : Nat → Option A) (i k j : Nat) (x y : Obj) :
    Prop :=
  if i ≤ j ∧ j < k then ∃ w, get j = some w ∧ pat x w = some y else y = x

theorem patchLoop_some {A : Type} {pat : Obj → A → Option Obj} {get : Nat → Option A} (n i : Nat)
    (xs ys : List Obj) (h : patchLoop pat get n i xs = some ys) :
    ∃ k, i ≤ k ∧ get k = none ∧ (∀ j, i ≤ j → j < k → get j ≠ none) ∧ ys.length = xs.length ∧
      ∀ (j : Nat) x y, xs[j]? = some x → ys[j]? = some y → PatchedTo pat get i k j x y := by
  induction n generalizing i xs with
  | zero => cases h
  | succ n ih =>
    simp only [patchLoop] at h
    split at h
    · next hg =>
      cases h
      refine ⟨i, Nat.le_refl _, hg, fun j h1 h2 => by omega, rfl, fun j x y hx hy => ?_⟩
      rw [hx] at hy
      cases hy
      rw [PatchedTo, if_neg (by omega)]
    · next w hg =>
      split at h
      · next hi =>
        obtain ⟨k, h1, h2, h3, h4, h5⟩ := ih _ _ h
        refine ⟨k, by omega, h2, fun j hj hjk => ?_, h4, fun j x y hx hy => ?_⟩
        · by_cases he : j = i
          · subst he; rw [hg]; exact nofun
          · exact h3 j (by omega) hjk
        · have := h5 j x y hx hy
          have hji : j ≠ i := by rintro rfl; rw [hx] at hi; cases hi
          unfold PatchedTo at this ⊢
          by_cases hc : i ≤ j ∧ j < k
          · rw [if_pos hc]; rwa [if_pos (by omega)] at this
          · rw [if_neg hc]; rwa [if_neg (by omega)] at this
      · next z hi =>
        obtain ⟨z', hz, h⟩ := Option.bind_eq_some_iff.mp h
        obtain ⟨k, h1, h2, h3, h4, h5⟩ := ih _ _ h
        refine ⟨k, by omega, h2, fun j hj hjk => ?_, by rw [h4, List.length_set], fun j x y hx hy => ?_⟩
        · by_cases he : j = i
          · subst he; rw [hg]; exact nofun
          · exact h3 j (by omega) hjk
        · by_cases hji : j = i
          · subst hji
            have hlt := (List.getElem?_eq_some_iff.mp hi).1
            have := h5 j z' y (by rw [List.getElem?_set_self hlt]) hy
            unfold PatchedTo at this ⊢
            rw [if_neg (by omega)] at this
            rw [if_pos (by omega)]
            rw [hi] at hx
            cases hx
            exact ⟨w, hg, by rw [hz, this]⟩
          · have := h5 j x y (by rw [List.getElem?_set_ne (Ne.symm hji)]; exact hx) hy
            unfold PatchedTo at this ⊢
            by_cases hc : i ≤ j ∧ j < k
            · rw [if_pos hc]; rwa [if_pos (by omega)] at this
            · rw [if_neg hc]; rwa [if_neg (by omega)] at this

theorem patchLoop_of {A : Type} {pat : Obj → A → Option Obj} {get : Nat → Option A} {k : Nat}
    (hend : get k = none) (d i : Nat) (hd : i + d = k) (hne : ∀ j, i ≤ j → j < k → get j ≠ none)
    (xs ys : List Obj) (hl : ys.length = xs.length)
    (h : ∀ (j : Nat) x y, xs[j]? = some x → ys[j]? = some y → PatchedTo pat get i k j x y) :
    patchLoop pat get (d + 1) i xs = some ys := by
  induction d generalizing i xs with
  | zero =>
    rw [Nat.add_zero] at hd
    subst hd
    simp only [patchLoop, hend]
    congr 1
    apply List.ext_getElem?
    intro j
    cases hx : xs[j]? with
    | none =>
      rw [List.getElem?_eq_none_iff] at hx
      rw [eq_comm, List.getElem?_eq_none_iff]; omega
    | some x =>
      obtain ⟨y, hy⟩ := align_pos hl.symm hx
      have := h j x y hx hy
      rw [PatchedTo, if_neg (by omega)] at this
      rw [hy, this]
  | succ d ih =>
    rw [patchLoop]
    cases hg : get i with
    | none => exact absurd hg (hne i (Nat.le_refl _) (by omega))
    | some w =>
      dsimp only
      cases hi : xs[i]? with
      | none =>
        refine ih (i + 1) (by omega) (fun j h1 h2 => hne j (by omega) h2) xs hl fun j x y hx hy => ?_
        have := h j x y hx hy
        have hji : j ≠ i := by rintro rfl; rw [hx] at hi; cases hi
        unfold PatchedTo at this ⊢
        by_cases hc : i + 1 ≤ j ∧ j < k
        · rw [if_pos hc]; rwa [if_pos (by omega)] at this
        · rw [if_neg hc]; rwa [if_neg (by omega)] at this
      | some z =>
        obtain ⟨z', hz'⟩ := align_pos hl.symm hi
        have hz := h i z z' hi hz'
        rw [PatchedTo, if_pos (by omega)] at hz
        obtain ⟨w', hw', hz⟩ := hz
        rw [hg] at hw'
        cases hw'
        dsimp only
        rw [hz]
        refine ih (i + 1) (by omega) (fun j h1 h2 => hne j (by omega) h2) _
          (by rw [List.length_set]; exact hl) fun j x y hx hy => ?_
        have hlt := (List.getElem?_eq_some_iff.mp hi).1
        by_cases hji : j = i
        · subst hji
          rw [List.getElem?_set_self hlt] at hx
          cases hx
          rw [hz'] at hy
          cases hy
          rw [PatchedTo, if_neg (by omega)]
        · rw [List.getElem?_set_ne (Ne.symm hji)] at hx
          have := h j x y hx hy
          unfold PatchedTo at this ⊢
          by_cases hc : i + 1 ≤ j ∧ j < k
          · rw [if_pos hc]; rwa [if_pos (by omega)] at this
          · rw [if_neg hc]; rwa [if_neg (by omega)] at this

theorem patchLoop_endless {A : Type} {pat : Obj → A → Option Obj} {get : Nat → Option A}
    (h : ∀ i, get i ≠ none) (n i : Nat) (xs : List Obj) : patchLoop pat get n i xs = none := by
  cases hr : patchLoop pat get n i xs with
  | none => rfl
  | some ys =>
    obtain ⟨k, _, hk, _⟩ := patchLoop_some n i xs ys hr
    exact absurd hk (h k)

end Mirror
