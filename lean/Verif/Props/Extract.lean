import Verif.Lemmas.Extract
import Verif.Lemmas.Demo

set_option linter.unusedSimpArgs false

/-!
# Descriptors of parts (C56)

`intoDescriptor E d.graph i` is `into_type_descriptor` on the type found by navigating the descriptor `d` to
`i`. It is compared with the descriptor `e` that `type_descriptor()` computes for the type `i` itself.
-/

namespace Mirror

variable {E : Env}

/-- C56. Every type that can be navigated to can be turned into a descriptor, rooted at that type. -/
theorem C56_part_descriptor (hD : DeclsOK E) {fuel t d} (h : describe E fuel t = some d) {i : Ty}
    (hi : Nav d.graph d.root i) : ∃ s, intoDescriptor E d.graph i = some s ∧ s.root = i := by
  obtain ⟨n, hn⟩ := descriptor_closed hD h hi
  have hdesc := (descriptor_describes hD h hi hn).1
  simp only [intoDescriptor, hn]
  cases n with
  | scalar k =>
    cases hdesc
    exact ⟨_, rfl, rfl⟩
  | _ => exact ⟨_, rfl, rfl⟩

theorem extract_agree (hD : DeclsOK E) {fuel fuel' t d i e s} (h : describe E fuel t = some d)
    (hi : Nav d.graph d.root i) (h' : describe E fuel' i = some e)
    (hs : intoDescriptor E d.graph i = some s) :
    s.root = i ∧ e.root = i ∧ ∃ P, P i ∧ GAgree P s.graph e.graph ∧ ∀ j, P j ↔ Nav s.graph i j := by
  obtain ⟨n, hn⟩ := descriptor_closed hD h hi
  have hdesc := (descriptor_describes hD h hi hn).1
  obtain ⟨hr, ha⟩ := part_agree hD h hi h'
  simp only [intoDescriptor, hn] at hs
  by_cases hk : ∃ k, n = .scalar k
  · obtain ⟨k, rfl⟩ := hk
    cases hdesc
    have : s = e := descriptor_deterministic hs h'
    subst this
    exact ⟨hr, hr, Nav s.graph (.scalar k), .root,
      ⟨fun _ _ => rfl, fun j n hj hn k hk => .step _ _ _ hj hn hk⟩, fun _ => Iff.rfl⟩
  · have : s = ⟨i, d.graph⟩ := by
      cases n with
      | scalar k => exact absurd ⟨k, rfl⟩ hk
      | _ => simpa using hs.symm
    subst this
    exact ⟨rfl, hr, Nav d.graph i, .root, ha, fun _ => Iff.rfl⟩

/-- C56. Whatever is asked of it, the descriptor of a part answers like the type's own descriptor: the same
types can be navigated to and look the same, ... -/
theorem C56_same_types (hD : DeclsOK E) {fuel fuel' t d i e s} (h : describe E fuel t = some d)
    (hi : Nav d.graph d.root i) (h' : describe E fuel' i = some e)
    (hs : intoDescriptor E d.graph i = some s) (j : Ty) :
    (Nav s.graph s.root j ↔ Nav e.graph e.root j) ∧
    (Nav s.graph s.root j → s.graph.node j = e.graph.node j) := by
  obtain ⟨hr, hr', P, hP, ha, hN⟩ := extract_agree hD h hi h' hs
  rw [hr, hr']
  refine ⟨⟨fun hj => ?_, fun hj => ?_⟩, fun hj => ha.node j ((hN j).mpr hj)⟩
  · induction hj with
    | root => exact .root
    | step a n b hb hn hm ih => exact .step _ _ _ ih ((ha.node a ((hN a).mpr hb)).symm.trans hn) hm
  · induction hj with
    | root => exact .root
    | step a n b hb hn hm ih => exact .step _ _ _ ih ((ha.node a ((hN a).mpr ih)).trans hn) hm

/-- ... `type_at` finds the same for every path, ... -/
theorem C56_same_paths (hD : DeclsOK E) {fuel fuel' t d i e s} (h : describe E fuel t = some d)
    (hi : Nav d.graph d.root i) (h' : describe E fuel' i = some e)
    (hs : intoDescriptor E d.graph i = some s) (p : KeyPath) : s.typeAt p = e.typeAt p := by
  obtain ⟨hr, hr', P, hP, ha, -⟩ := extract_agree hD h hi h' hs
  obtain ⟨r, g⟩ := s
  obtain ⟨r', g'⟩ := e
  simp only at hr hr' ha
  subst hr hr'
  exact typeAt_agree ha hP p

/-- ... `default_value` and `has_default_value` return the same, at the same call depth, ... -/
theorem C56_same_default (hD : DeclsOK E) {fuel fuel' t d i e s} (h : describe E fuel t = some d)
    (hi : Nav d.graph d.root i) (h' : describe E fuel' i = some e)
    (hs : intoDescriptor E d.graph i = some s) (depth : Nat) :
    defaultValue s.graph depth s.root = defaultValue e.graph depth e.root ∧
    hasDefault s.graph depth s.root = hasDefault e.graph depth e.root := by
  obtain ⟨hr, hr', P, hP, ha, -⟩ := extract_agree hD h hi h' hs
  rw [hr, hr']
  exact ⟨default_agree ha depth i hP, hasDefault_agree ha depth i hP⟩

/-- ... and it is pretty-printed the same. -/
theorem C56_same_text (hD : DeclsOK E) {fuel fuel' t d i e s} (h : describe E fuel t = some d)
    (hi : Nav d.graph d.root i) (h' : describe E fuel' i = some e)
    (hs : intoDescriptor E d.graph i = some s) (nm : Ty → Except PrintErr String) :
    prettyRoot nm s.graph s.root = prettyRoot nm e.graph e.root := by
  obtain ⟨hr, hr', P, hP, ha, -⟩ := extract_agree hD h hi h' hs
  rw [hr, hr']
  exact pretty_agree ha nm hP

/-- C56. If the whole has finitely many component types, the part does have a descriptor of its own. -/
theorem C56_own_exists (hD : DeclsOK E) {fuel t d i} (hF : Finite E t) (h : describe E fuel t = some d)
    (hi : Nav d.graph d.root i) : ∃ fuel' e, describe E fuel' i = some e := by
  obtain ⟨u, hu, rfl⟩ := nav_reach hD h hi
  have hu' : t.Reach E u.unbox := hu.trans (reach_unbox u)
  obtain ⟨S, htS, hc, hdecl⟩ := hF
  have hmem : ∀ v, t.Reach E v → v ∈ S := by
    intro v hv
    induction hv with
    | refl => exact htS
    | step a b _ hb ih => exact hc a ih b hb
  refine (describe_terminates_iff hD ⟨S, hmem _ hu', hc, hdecl⟩).mpr fun v hv => ?_
  obtain ⟨_, _, _, hg⟩ := describe_good hD h
  exact acc_unbox.mp (hg _ (describe_complete hD h (hu'.trans hv))).2.1

/-- C56. `==` between the two is another matter: they are equal exactly if the type is a scalar or contains
the root of the larger descriptor in turn. -/
theorem C56_equal_iff (hD : DeclsOK E) {fuel fuel' t d i e s} (h : describe E fuel t = some d)
    (hi : Nav d.graph d.root i) (h' : describe E fuel' i = some e)
    (hs : intoDescriptor E d.graph i = some s) :
    s = e ↔ (∃ k, i = .scalar k) ∨ i.Reach E t.unbox := by
  obtain ⟨n, hn⟩ := descriptor_closed hD h hi
  have hdesc := (descriptor_describes hD h hi hn).1
  obtain ⟨hr, ha⟩ := part_agree hD h hi h'
  have hroot := descriptor_root hD h
  obtain ⟨u, hu, hiu⟩ := nav_reach hD h hi
  simp only [intoDescriptor, hn] at hs
  by_cases hk : ∃ k, n = .scalar k
  · obtain ⟨k, rfl⟩ := hk
    cases hdesc
    exact ⟨fun _ => .inl ⟨k, rfl⟩, fun _ => descriptor_deterministic hs h'⟩
  · have : s = ⟨i, d.graph⟩ := by
      cases n with
      | scalar k => exact absurd ⟨k, rfl⟩ hk
      | _ => simpa using hs.symm
    subst this
    have hns : ¬ ∃ k, i = .scalar k := by
      rintro ⟨k, rfl⟩
      cases hdesc
      exact hk ⟨k, rfl⟩
    obtain ⟨_, hp, _, hg⟩ := describe_good hD h
    obtain ⟨_, _, _, hg'⟩ := describe_good hD h'
    constructor
    · intro he
      right
      have : e.graph t.unbox ≠ none := by
        rw [← he, ← hroot]; exact hp
      obtain ⟨⟨v, hv, hv'⟩, _⟩ := hg' _ this
      rw [hv']
      exact hv.trans (reach_unbox v)
    · rintro (h1 | h1)
      · exact absurd h1 hns
      · obtain ⟨r, g'⟩ := e
        simp only at hr
        subst hr
        congr 1
        funext j
        have key : d.graph j ≠ none ↔ g' j ≠ none := by
          constructor
          · intro hj
            obtain ⟨⟨v, hv, rfl⟩, -⟩ := hg j hj
            have : ∃ w, t.unbox.Reach E w ∧ w.unbox = v.unbox := by
              clear hj
              induction hv with
              | refl => exact ⟨_, .refl, unbox_unbox t⟩
              | step a b _ hb ih =>
                obtain ⟨w, hw, he⟩ := ih
                by_cases hbx : ∃ c, a = .box c
                · obtain ⟨c, rfl⟩ := hbx
                  simp only [Ty.comps, List.mem_singleton] at hb
                  subst hb
                  exact ⟨w, hw, he⟩
                · have hub : a.unbox = a := by rw [Ty.unbox]; exact fun c hc => hbx ⟨c, hc⟩
                  have hwa : t.unbox.Reach E a := by
                    rw [← hub, ← he]; exact hw.trans (reach_unbox w)
                  exact ⟨b, .step _ _ hwa hb, rfl⟩
            obtain ⟨w, hw, he⟩ := this
            rw [← he]
            exact describe_complete hD h' (h1.trans hw)
          · intro hj
            obtain ⟨⟨v, hv, rfl⟩, _⟩ := hg' j hj
            exact describe_complete hD h ((hu.trans (hiu ▸ reach_unbox u)).trans hv)
        by_cases hj : d.graph j = none
        · rw [hj]
          by_contra hc
          exact (key.mpr (Ne.symm hc)) hj
        · obtain ⟨_, _, m, hm, hdm, _⟩ := hg j hj
          obtain ⟨_, _, m', hm', hdm', _⟩ := hg' j (key.mp hj)
          exact hm.trans ((congrArg (some ∘ some) (hdm.unique hD hdm')).trans hm'.symm)

/-- `Point` inside `(Point, Vec<Tree>)`: the part's descriptor exists and differs from `Point`'s own one;
`Vec<Tree>` inside `Tree`: equal. -/
example : ∃ d e s, describe demoEnv 10 (.tuple [.named "Point", .vec (.named "Tree")]) = some d ∧
    Nav d.graph d.root (.named "Point") ∧ describe demoEnv 10 (.named "Point") = some e ∧
    intoDescriptor demoEnv d.graph (.named "Point") = some s ∧ s ≠ e := by
  have hd : ∃ d, describe demoEnv 10 (.tuple [.named "Point", .vec (.named "Tree")]) = some d :=
    ⟨_, rfl⟩
  obtain ⟨d, hd⟩ := hd
  have hnav : Nav d.graph d.root (.named "Point") :=
    descriptor_complete demo_declsOK hd (u := .named "Point") (.step _ _ .refl (by decide))
  obtain ⟨s, hs, _⟩ := C56_part_descriptor demo_declsOK hd hnav
  have he : ∃ e, describe demoEnv 10 (.named "Point") = some e := ⟨_, rfl⟩
  obtain ⟨e, he⟩ := he
  refine ⟨d, e, s, hd, hnav, he, hs, ?_⟩
  rw [Ne, C56_equal_iff demo_declsOK hd hnav he hs]
  rintro (⟨k, hk⟩ | hr)
  · cases hk
  · have : ∀ u, (Ty.named "Point").Reach demoEnv u → u ∈ 
        [Ty.named "Point", .scalar (.int .i32), .scalar .f32] := by
      intro u hu
      induction hu with
      | refl => simp
      | step a b _ hb ih =>
        have : ∀ a ∈ [Ty.named "Point", .scalar (.int .i32), .scalar .f32],
            ∀ b ∈ a.comps demoEnv, b ∈ [Ty.named "Point", .scalar (.int .i32), .scalar .f32] := by decide
        exact this a ih b hb
    have := this _ hr
    revert this
    decide

example : ∃ d e s, describe demoEnv 10 (.named "Tree") = some d ∧
    Nav d.graph d.root (.vec (.named "Tree")) ∧ describe demoEnv 10 (.vec (.named "Tree")) = some e ∧
    intoDescriptor demoEnv d.graph (.vec (.named "Tree")) = some s ∧ s = e := by
  have hd : ∃ d, describe demoEnv 10 (.named "Tree") = some d := ⟨_, rfl⟩
  obtain ⟨d, hd⟩ := hd
  have hnav : Nav d.graph d.root (.vec (.named "Tree")) :=
    descriptor_complete demo_declsOK hd (u := .vec (.named "Tree")) (.step _ _ .refl (by decide))
  obtain ⟨s, hs, _⟩ := C56_part_descriptor demo_declsOK hd hnav
  have he : ∃ e, describe demoEnv 10 (.vec (.named "Tree")) = some e := ⟨_, rfl⟩
  obtain ⟨e, he⟩ := he
  exact ⟨d, e, s, hd, hnav, he, hs, (C56_equal_iff demo_declsOK hd hnav he hs).mpr
    (.inr (.step _ _ .refl (by decide)))⟩

end Mirror
