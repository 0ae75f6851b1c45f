import Verif.Io.Model
import Mathlib.Tactic.Tauto
import Mathlib.Data.List.Induction

/-!
C64: theorems about the registry of handlers, load and write.
-/
namespace Verif.Io

/-! ### specification -/

/-- `r` is the last registration with `p` -/
def LastWith {H : Type} (p : Registration H → Prop) (rs : List (Registration H)) (r : Registration H) : Prop :=
  ∃ pre post, rs = pre ++ r :: post ∧ p r ∧ ∀ x ∈ post, ¬ p x

/-- the parser for the extension of a file, in words of the registrations -/
def ForExtension {H : Type} (rs : List (Registration H)) (e : Str) (h : H) : Prop :=
  e ≠ [] ∧ ∃ r, LastWith (fun r => r.extension = e) rs r ∧ r.handler = h

/-- the handler with a name, in words of the registrations -/
def ForName {H : Type} (rs : List (Registration H)) (n : Str) (h : H) : Prop := ∃ r, LastWith (fun r => r.name = n) rs r ∧ r.handler = h

/-! ### proofs: the maps -/

theorem find_assign {H : Type} (k k' : Str) (v : H) (m : SMap H) : (m.assign k v).find k' = if k' = k then some v else m.find k' := by
  induction m with
  | nil =>
    unfold SMap.assign SMap.find
    by_cases h : k' = k
    · simp [h]
    · simp [h, Ne.symm h]
  | cons e m ih =>
    obtain ⟨a, b⟩ := e
    unfold SMap.assign
    split
    · unfold SMap.find
      by_cases h : k' = k
      · simp [h]
      · rw [List.find?_cons_of_neg (by simpa using Ne.symm h), if_neg h]
    · split
      · rename_i h1 h2
        subst h2
        unfold SMap.find
        by_cases h : k' = k
        · simp [h]
        · rw [if_neg h, List.find?_cons_of_neg (by simpa using Ne.symm h), List.find?_cons_of_neg (by simpa using Ne.symm h)]
      · rename_i h1 h2
        unfold SMap.find at ih ⊢
        by_cases ha : a = k'
        · subst ha
          rw [if_neg (Ne.symm h2)]
          simp
        · rw [List.find?_cons_of_neg (by simpa using ha), List.find?_cons_of_neg (by simpa using ha)]
          exact ih

theorem mem_assign {H : Type} (k x : Str) (v : H) (m : SMap H) : x ∈ (m.assign k v).map (·.1) ↔ x = k ∨ x ∈ m.map (·.1) := by
  induction m with
  | nil => simp [SMap.assign]
  | cons e m ih =>
    obtain ⟨a, b⟩ := e
    unfold SMap.assign
    split
    · simp
    · split
      · rename_i h; subst h; simp
      · simp only [List.map_cons, List.mem_cons, ih]; tauto

theorem sorted_assign {H : Type} (k : Str) (v : H) (m : SMap H) (h : (m.map (·.1)).Pairwise (· < ·)) :
    ((m.assign k v).map (·.1)).Pairwise (· < ·) := by
  induction m with
  | nil => simp [SMap.assign]
  | cons e m ih =>
    obtain ⟨a, b⟩ := e
    simp only [List.map_cons, List.pairwise_cons] at h
    unfold SMap.assign
    split
    · rename_i hk
      simp only [List.map_cons, List.pairwise_cons, List.mem_cons]
      exact ⟨by rintro x (rfl | hx); exacts [hk, lt_trans hk (h.1 x hx)], h⟩
    · split
      · rename_i hk
        subst hk
        simpa using h
      · rename_i h1 h2
        simp only [List.map_cons, List.pairwise_cons]
        refine ⟨fun x hx => ?_, ih h.2⟩
        rcases (mem_assign k x v m).mp hx with rfl | hx
        · exact lt_of_le_of_ne (not_lt.mp h1) (Ne.symm h2)
        · exact h.1 x hx

/-! ### proofs: the factory -/

theorem ofRegistrations_snoc {H : Type} (rs : List (Registration H)) (r : Registration H) :
    Factory.ofRegistrations (rs ++ [r]) = (Factory.ofRegistrations rs).register r.name r.extension r.handler := by
  unfold Factory.ofRegistrations
  rw [List.foldl_append]
  rfl

theorem lastWith_snoc {H : Type} {p : Registration H → Prop} {rs : List (Registration H)} {r x : Registration H} :
    LastWith p (rs ++ [r]) x ↔ (p r ∧ x = r) ∨ (¬ p r ∧ LastWith p rs x) := by
  constructor
  · rintro ⟨pre, post, e, h1, h2⟩
    rcases List.eq_nil_or_concat post with rfl | ⟨post, y, rfl⟩
    · obtain ⟨-, e⟩ := List.append_inj' e rfl
      rw [List.cons.inj e |>.1]
      exact .inl ⟨h1, rfl⟩
    · rw [List.concat_eq_append] at e h2
      have e' : rs ++ [r] = (pre ++ x :: post) ++ [y] := by rw [e]; simp
      obtain ⟨rfl, e2⟩ := List.append_inj' e' rfl
      obtain rfl := List.cons.inj e2 |>.1
      exact .inr ⟨h2 r (by simp), pre, post, rfl, h1, fun z hz => h2 z (by simp [hz])⟩
  · rintro (⟨h, rfl⟩ | ⟨h, pre, post, rfl, h1, h2⟩)
    · exact ⟨rs, [], rfl, h, by simp⟩
    · refine ⟨pre, post ++ [r], by simp, h1, fun z hz => ?_⟩
      rcases List.mem_append.mp hz with hz | hz
      · exact h2 z hz
      · rw [List.mem_singleton.mp hz]; exact h

theorem registry_find {H : Type} (rs : List (Registration H)) (n : Str) (h : H) :
    (Factory.ofRegistrations rs).registry.find n = some h ↔ ForName rs n h := by
  induction rs using List.reverseRecOn with
  | nil =>
    unfold ForName
    constructor
    · intro hc; cases hc
    · rintro ⟨r, ⟨pre, post, e, -⟩, -⟩
      simp at e
  | append_singleton rs r ih =>
    rw [ofRegistrations_snoc]
    unfold Factory.register ForName
    simp only [find_assign, lastWith_snoc]
    split
    · rename_i hn
      subst hn
      simp only [Option.some.injEq]
      constructor
      · rintro rfl; exact ⟨r, .inl ⟨trivial, rfl⟩, rfl⟩
      · rintro ⟨x, (⟨-, rfl⟩ | ⟨hc, -⟩), rfl⟩
        · rfl
        · exact absurd trivial hc
    · rename_i hn
      rw [ih]
      unfold ForName
      constructor
      · rintro ⟨x, hx, e⟩; exact ⟨x, .inr ⟨fun hc => hn hc.symm, hx⟩, e⟩
      · rintro ⟨x, (⟨hc, -⟩ | ⟨-, hx⟩), e⟩
        · exact absurd hc.symm hn
        · exact ⟨x, hx, e⟩

theorem extension_find {H : Type} (rs : List (Registration H)) (n : Str) (h : H) :
    (Factory.ofRegistrations rs).extensionRegistry.find n = some h ↔ ForExtension rs n h := by
  induction rs using List.reverseRecOn with
  | nil =>
    unfold ForExtension
    constructor
    · intro hc; cases hc
    · rintro ⟨-, r, ⟨pre, post, e, -⟩, -⟩
      simp at e
  | append_singleton rs r ih =>
    rw [ofRegistrations_snoc]
    unfold Factory.register
    by_cases he : r.extension = []
    · simp only [he, List.isEmpty_nil, if_true]
      rw [ih]
      unfold ForExtension
      refine and_congr_right fun hn => ?_
      simp only [lastWith_snoc, he]
      constructor
      · rintro ⟨x, hx, e⟩; exact ⟨x, .inr ⟨fun hc => hn hc.symm, hx⟩, e⟩
      · rintro ⟨x, (⟨hc, -⟩ | ⟨-, hx⟩), e⟩
        · exact absurd hc.symm hn
        · exact ⟨x, hx, e⟩
    · have : r.extension.isEmpty = false := by simpa using he
      simp only [this, Bool.false_eq_true, if_false, find_assign]
      split
      · rename_i hn
        subst hn
        unfold ForExtension
        simp only [Option.some.injEq, lastWith_snoc]
        constructor
        · rintro rfl; exact ⟨he, r, .inl ⟨trivial, rfl⟩, rfl⟩
        · rintro ⟨-, x, (⟨-, rfl⟩ | ⟨hc, -⟩), rfl⟩
          · rfl
          · exact absurd trivial hc
      · rename_i hn
        rw [ih]
        unfold ForExtension
        refine and_congr_right fun _ => ?_
        simp only [lastWith_snoc]
        constructor
        · rintro ⟨x, hx, e⟩; exact ⟨x, .inr ⟨fun hc => hn hc.symm, hx⟩, e⟩
        · rintro ⟨x, (⟨hc, -⟩ | ⟨-, hx⟩), e⟩
          · exact absurd hc.symm hn
          · exact ⟨x, hx, e⟩

theorem exists_last {H : Type} {p : Registration H → Prop} {rs : List (Registration H)} : (∃ x, LastWith p rs x) ↔ ∃ r ∈ rs, p r := by
  constructor
  · rintro ⟨x, pre, post, rfl, h, -⟩
    exact ⟨x, by simp, h⟩
  · intro h
    induction rs using List.reverseRecOn with
    | nil => obtain ⟨r, hr, -⟩ := h; cases hr
    | append_singleton rs r ih =>
      by_cases hp : p r
      · exact ⟨r, lastWith_snoc.mpr (.inl ⟨hp, rfl⟩)⟩
      · obtain ⟨x, hx, hpx⟩ := h
        rcases List.mem_append.mp hx with hx | hx
        · obtain ⟨y, hy⟩ := ih ⟨x, hx, hpx⟩
          exact ⟨y, lastWith_snoc.mpr (.inr ⟨hp, hy⟩)⟩
        · rw [List.mem_singleton.mp hx] at hpx
          exact absurd hpx hp

/-! ### theorems: the registry -/

/-- C64: the handler created for a name is the one registered last with it. -/
theorem create_iff {H : Type} (rs : List (Registration H)) (n : Str) (h : H) :
    (Factory.ofRegistrations rs).create n = .ok h ↔ ForName rs n h := by
  rw [← registry_find]
  unfold Factory.create
  split <;> rename_i e <;> rw [e] <;> simp

/-- C64: it is an error iff no handler has that name. -/
theorem create_error_iff {H : Type} (rs : List (Registration H)) (n : Str) :
    (Factory.ofRegistrations rs).create n = .error .unsupportedHandler ↔ ∀ r ∈ rs, r.name ≠ n := by
  have h1 : (∀ r ∈ rs, r.name ≠ n) ↔ ¬ ∃ h, ForName rs n h := by
    have : (∃ h, ForName rs n h) ↔ ∃ r ∈ rs, r.name = n := by
      rw [← exists_last]
      exact ⟨fun ⟨h, r, hr, _⟩ => ⟨r, hr⟩, fun ⟨r, hr⟩ => ⟨r.handler, r, hr, rfl⟩⟩
    rw [this]; push Not; rfl
  rw [h1]
  simp only [← registry_find]
  unfold Factory.create
  split <;> rename_i e <;> rw [e] <;> simp

/-- C64: the handler created for an extension is the one registered last with it. -/
theorem createFromExtension_iff {H : Type} (rs : List (Registration H)) (e : Str) (h : H) :
    (Factory.ofRegistrations rs).createFromExtension e = .ok h ↔ ForExtension rs e h := by
  rw [← extension_find]
  unfold Factory.createFromExtension
  split <;> rename_i e <;> rw [e] <;> simp

/-- C64: it is an error iff there is no extension, or no handler has it. -/
theorem createFromExtension_error_iff {H : Type} (rs : List (Registration H)) (e : Str) :
    (Factory.ofRegistrations rs).createFromExtension e = .error .unsupportedExtension ↔ e = [] ∨ ∀ r ∈ rs, r.extension ≠ e := by
  have h1 : (e = [] ∨ ∀ r ∈ rs, r.extension ≠ e) ↔ ¬ ∃ h, ForExtension rs e h := by
    have : (∃ h, ForExtension rs e h) ↔ e ≠ [] ∧ ∃ r ∈ rs, r.extension = e := by
      rw [← exists_last]
      exact ⟨fun ⟨h, he, r, hr, _⟩ => ⟨he, r, hr⟩, fun ⟨he, r, hr⟩ => ⟨r.handler, he, r, hr, rfl⟩⟩
    rw [this]
    by_cases he : e = []
    · simp [he]
    · simp only [he, false_or, ne_eq, not_false_eq_true, true_and]; push Not; rfl
  rw [h1]
  simp only [← extension_find]
  unfold Factory.createFromExtension
  split <;> rename_i e <;> rw [e] <;> simp

theorem sortStr_spec {l : List Str} (h : l.Pairwise (· < ·)) : (sortStr l).Pairwise (· < ·) ∧ ∀ x, x ∈ sortStr l ↔ x ∈ l := by
  have hs : sortStr l = l := List.Pairwise.insertionSort_eq (h.imp fun h => le_of_lt h)
  rw [hs]
  exact ⟨h, fun _ => Iff.rfl⟩

/-- C64: the available handlers are the registered names, each once, in ascending order. -/
theorem available_iff {H : Type} (rs : List (Registration H)) :
    (Factory.ofRegistrations rs).available.Pairwise (· < ·) ∧
      ∀ n, n ∈ (Factory.ofRegistrations rs).available ↔ ∃ r ∈ rs, r.name = n := by
  have h : ((Factory.ofRegistrations rs).registry.map (·.1)).Pairwise (· < ·) ∧
      ∀ n, n ∈ (Factory.ofRegistrations rs).registry.map (·.1) ↔ ∃ r ∈ rs, r.name = n := by
    induction rs using List.reverseRecOn with
    | nil => exact ⟨List.Pairwise.nil, fun n => by simp [Factory.ofRegistrations]⟩
    | append_singleton rs r ih =>
      rw [ofRegistrations_snoc]
      refine ⟨sorted_assign _ _ _ ih.1, fun n => ?_⟩
      show n ∈ (SMap.assign _ _ _).map _ ↔ _
      rw [mem_assign, ih.2]
      constructor
      · rintro (rfl | ⟨x, hx, e⟩)
        · exact ⟨r, by simp, rfl⟩
        · exact ⟨x, by simp [hx], e⟩
      · rintro ⟨x, hx, rfl⟩
        rcases List.mem_append.mp hx with hx | hx
        · exact .inr ⟨x, hx, rfl⟩
        · rw [List.mem_singleton.mp hx]; exact .inl rfl
  exact ⟨(sortStr_spec h.1).1, fun n => ((sortStr_spec h.1).2 n).trans (h.2 n)⟩

/-- C64: the available extensions are the registered ones, each once, in ascending order. -/
theorem availableExtensions_iff {H : Type} (rs : List (Registration H)) :
    (Factory.ofRegistrations rs).availableExtensions.Pairwise (· < ·) ∧
      ∀ e, e ∈ (Factory.ofRegistrations rs).availableExtensions ↔ e ≠ [] ∧ ∃ r ∈ rs, r.extension = e := by
  have h : ((Factory.ofRegistrations rs).extensionRegistry.map (·.1)).Pairwise (· < ·) ∧
      ∀ n, n ∈ (Factory.ofRegistrations rs).extensionRegistry.map (·.1) ↔ n ≠ [] ∧ ∃ r ∈ rs, r.extension = n := by
    induction rs using List.reverseRecOn with
    | nil => exact ⟨List.Pairwise.nil, fun n => by simp [Factory.ofRegistrations]⟩
    | append_singleton rs r ih =>
      rw [ofRegistrations_snoc]
      unfold Factory.register
      by_cases he : r.extension = []
      · simp only [he, List.isEmpty_nil, if_true]
        refine ⟨ih.1, fun n => (ih.2 n).trans (and_congr_right fun hn => ?_)⟩
        constructor
        · rintro ⟨x, hx, e⟩; exact ⟨x, by simp [hx], e⟩
        · rintro ⟨x, hx, rfl⟩
          rcases List.mem_append.mp hx with hx | hx
          · exact ⟨x, hx, rfl⟩
          · rw [List.mem_singleton.mp hx] at hn; exact absurd he hn
      · have : r.extension.isEmpty = false := by simpa using he
        simp only [this, Bool.false_eq_true, if_false]
        refine ⟨sorted_assign _ _ _ ih.1, fun n => ?_⟩
        rw [mem_assign, ih.2]
        constructor
        · rintro (rfl | ⟨hn, x, hx, e⟩)
          · exact ⟨he, r, by simp, rfl⟩
          · exact ⟨hn, x, by simp [hx], e⟩
        · rintro ⟨hn, x, hx, rfl⟩
          rcases List.mem_append.mp hx with hx | hx
          · exact .inr ⟨hn, x, hx, rfl⟩
          · rw [List.mem_singleton.mp hx]; exact .inl rfl
  exact ⟨(sortStr_spec h.1).1, fun n => ((sortStr_spec h.1).2 n).trans (h.2 n)⟩

theorem last_unique {H : Type} {p : Registration H → Prop} {rs : List (Registration H)} (h : rs.Pairwise fun a b => ¬ (p a ∧ p b))
    (r : Registration H) : LastWith p rs r ↔ r ∈ rs ∧ p r := by
  constructor
  · rintro ⟨pre, post, rfl, h1, -⟩
    exact ⟨by simp, h1⟩
  · rintro ⟨hr, h1⟩
    obtain ⟨pre, post, rfl⟩ := List.append_of_mem hr
    refine ⟨pre, post, rfl, h1, fun x hx hc => ?_⟩
    rw [List.pairwise_append, List.pairwise_cons] at h
    exact h.2.1.1 x hx ⟨h1, hc⟩

/-- C64: if no two handlers have the same name or extension, the order of the registrations does not matter. -/
theorem registration_order {H : Type} {rs rs' : List (Registration H)} (hp : rs.Perm rs') (hn : rs.Pairwise fun a b => a.name ≠ b.name)
    (he : rs.Pairwise fun a b => a.extension = [] ∨ a.extension ≠ b.extension) :
    (∀ n, (Factory.ofRegistrations rs).create n = (Factory.ofRegistrations rs').create n) ∧
      ∀ e, (Factory.ofRegistrations rs).createFromExtension e = (Factory.ofRegistrations rs').createFromExtension e := by
  constructor
  · intro n
    have h1 : rs.Pairwise fun a b => ¬ (a.name = n ∧ b.name = n) := hn.imp fun h hc => h (hc.1.trans hc.2.symm)
    have h2 : rs'.Pairwise fun a b => ¬ (a.name = n ∧ b.name = n) := (hp.pairwise_iff fun h hc => h ⟨hc.2, hc.1⟩).mp h1
    have h : ∀ h, ForName rs n h ↔ ForName rs' n h := by
      intro h
      unfold ForName
      simp only [last_unique h1, last_unique h2, hp.mem_iff]
    have h : (Factory.ofRegistrations rs).registry.find n = (Factory.ofRegistrations rs').registry.find n :=
      Option.ext fun x => by rw [registry_find, registry_find]; exact h x
    unfold Factory.create
    rw [h]
  · intro n
    by_cases h0 : n = []
    · rw [(createFromExtension_error_iff rs n).mpr (.inl h0), (createFromExtension_error_iff rs' n).mpr (.inl h0)]
    have h1 : rs.Pairwise fun a b => ¬ (a.extension = n ∧ b.extension = n) := he.imp fun h hc => by
      rcases h with h | h
      · exact h0 (hc.1 ▸ h)
      · exact h (hc.1.trans hc.2.symm)
    have h2 : rs'.Pairwise fun a b => ¬ (a.extension = n ∧ b.extension = n) := (hp.pairwise_iff fun h hc => h ⟨hc.2, hc.1⟩).mp h1
    have h : ∀ h, ForExtension rs n h ↔ ForExtension rs' n h := by
      intro h
      unfold ForExtension
      simp only [last_unique h1, last_unique h2, hp.mem_iff]
    have h : (Factory.ofRegistrations rs).extensionRegistry.find n = (Factory.ofRegistrations rs').extensionRegistry.find n :=
      Option.ext fun x => by rw [extension_find, extension_find]; exact h x
    unfold Factory.createFromExtension
    rw [h]

/-! ### theorems: the extension of a path -/

theorem takeWhile_rev {c : Char} {a b : Str} (h : c ∉ b) : ((a ++ c :: b).reverse.takeWhile (· != c)).reverse = b := by
  rw [List.reverse_append, List.reverse_cons, List.append_assoc, List.takeWhile_append_of_pos]
  · simp
  · intro x hx
    simp only [bne_iff_ne, ne_eq]
    rintro rfl
    exact h (List.mem_reverse.mp hx)

theorem takeWhile_all {c : Char} {b : Str} (h : c ∉ b) : (b.reverse.takeWhile (· != c)).reverse = b := by
  rw [← List.append_nil b.reverse, List.takeWhile_append_of_pos, List.takeWhile_nil, List.append_nil, List.reverse_reverse]
  intro x hx
  simp only [bne_iff_ne, ne_eq]
  rintro rfl
  exact h (List.mem_reverse.mp hx)

theorem fileName_dir {dir name : Str} (h : '/' ∉ name) : fileName (dir ++ '/' :: name) = name := takeWhile_rev h

theorem fileName_plain {name : Str} (h : '/' ∉ name) : fileName name = name := takeWhile_all h

/-- the extension of a name without '/' -/
theorem extension_name {dir name : Str} (h : '/' ∉ name) : extension (dir ++ '/' :: name) = extension name := by
  unfold extension
  rw [fileName_dir h, fileName_plain h]

/-- C64: the extension starts at the last dot of the file name, whatever the directory is called. -/
theorem extension_dot {stem e : Str} (h1 : '/' ∉ stem) (h2 : '/' ∉ e) (h3 : '.' ∉ e) (h4 : e ≠ []) :
    extension (stem ++ '.' :: e) = '.' :: e ∧ ∀ dir, extension (dir ++ '/' :: (stem ++ '.' :: e)) = '.' :: e := by
  have hs : '/' ∉ stem ++ '.' :: e := by simp [h1, h2]
  have h : extension (stem ++ '.' :: e) = '.' :: e := by
    unfold extension
    simp only [fileName_plain hs]
    rw [if_neg, if_pos (by simp), takeWhile_rev h3]
    rintro (h | h)
    · cases stem with
      | nil => simp at h; exact h4 h
      | cons a s => simp at h
    · cases stem with
      | nil =>
        simp only [List.nil_append, List.cons.injEq, true_and] at h
        rw [h] at h3; simp at h3
      | cons a s =>
        cases s with
        | nil => simp at h; exact h4 h.2
        | cons b s => simp at h
  exact ⟨h, fun dir => by rw [extension_name hs, h]⟩

/-- C64: names without a dot have no extension, even in a directory with one. -/
theorem extension_none {name : Str} (h1 : '/' ∉ name) (h2 : '.' ∉ name) : extension name = [] ∧ ∀ dir, extension (dir ++ '/' :: name) = [] := by
  have h : extension name = [] := by
    unfold extension
    simp only [fileName_plain h1]
    split
    · rfl
    · rfl
  exact ⟨h, fun dir => by rw [extension_name h1, h]⟩

/-! ### theorems: load and write -/

/-- C64: a missing file is reported first, and nothing else happens. -/
theorem load_missing {P C M : Type} (f : Factory (P → C → Parser M)) (exist : Str → Bool) (file n : Str) (p : P) (t : Option (List Str)) (c : C)
    (h : exist file = false) : load f exist file p t c = ⟨.error .fileNotFound, t⟩ ∧ loadWith f exist file n p t c = ⟨.error .fileNotFound, t⟩ := by
  unfold load loadWith
  simp [h]

/-- C64: for a file with an extension nobody registered, load and write throw, and the errors are not changed. -/
theorem unsupported_extension {P C M D : Type} (rs : List (Registration (P → C → Parser M))) (ws : List (Registration (P → C → Writer C M D)))
    (exist : Str → Bool) (file : Str) (m : M) (p : P) (t : Option (List Str)) (c : C) (hx : exist file = true) :
    ((extension file = [] ∨ ∀ r ∈ rs, r.extension ≠ extension file) →
      load (Factory.ofRegistrations rs) exist file p t c = ⟨.error .unsupportedExtension, t⟩) ∧
    ((extension file = [] ∨ ∀ r ∈ ws, r.extension ≠ extension file) →
      write (Factory.ofRegistrations ws) file m p t c = ⟨.error .unsupportedExtension, t⟩) := by
  constructor <;> intro h
  · unfold load
    rw [(createFromExtension_error_iff rs _).mpr h]
    simp [hx, finish, bind, Except.bind]
  · unfold write
    rw [(createFromExtension_error_iff ws _).mpr h]
    simp [finish, bind, Except.bind]

/-- C64: for a name nobody registered, load and write throw, and the errors are not changed. -/
theorem unsupported_handler {P C M D : Type} (rs : List (Registration (P → C → Parser M))) (ws : List (Registration (P → C → Writer C M D)))
    (exist : Str → Bool) (file n : Str) (m : M) (p : P) (t : Option (List Str)) (c : C) (hx : exist file = true) :
    ((∀ r ∈ rs, r.name ≠ n) → loadWith (Factory.ofRegistrations rs) exist file n p t c = ⟨.error .unsupportedHandler, t⟩) ∧
    ((∀ r ∈ ws, r.name ≠ n) → writeWith (Factory.ofRegistrations ws) file m n p t c = ⟨.error .unsupportedHandler, t⟩) := by
  constructor <;> intro h
  · unfold loadWith
    rw [(create_error_iff rs _).mpr h]
    simp [hx, finish, bind, Except.bind]
  · unfold writeWith
    rw [(create_error_iff ws _).mpr h]
    simp [finish, bind, Except.bind]

/-- what the caller gets for a handler that did `r`: exceptions pass; without errors the result; with errors the result and the errors of
this call only, if there is a place for them, otherwise an exception with them -/
def Delivered {α : Type} (mk : List Str → Exn) (r : Except Exn (α × List Str)) (target : Option (List Str)) (o : Outcome α) : Prop :=
  (∀ e, r = .error e → o.result = .error e ∧ o.errors = target) ∧
  (∀ x errs old, r = .ok (x, errs) → target = some old → o.result = .ok x ∧ o.errors = some errs) ∧
  (∀ x, r = .ok (x, []) → target = none → o.result = .ok x ∧ o.errors = none) ∧
  (∀ x errs, r = .ok (x, errs) → errs ≠ [] → target = none → o.result = .error (mk errs) ∧ o.errors = none)

theorem finish_spec {α : Type} (mk : List Str → Exn) (r : Except Exn (α × List Str)) (t : Option (List Str)) :
    Delivered mk r t (finish mk r t) := by
  refine ⟨?_, ?_, ?_, ?_⟩
  · rintro e rfl; exact ⟨rfl, rfl⟩
  · rintro x errs old rfl rfl; exact ⟨rfl, rfl⟩
  · rintro x rfl rfl; exact ⟨rfl, rfl⟩
  · rintro x errs rfl h rfl
    have : errs.isEmpty = false := by simpa using h
    simp [finish, handleErrorsOrThrow, this]

/-- C64: load with the parser registered last for the extension of the file, and what the caller gets. -/
theorem load_spec {P C M : Type} {rs : List (Registration (P → C → Parser M))} {exist : Str → Bool} {file : Str} (p : P)
    (t : Option (List Str)) (c : C) (hx : exist file = true) {h : P → C → Parser M} (hh : ForExtension rs (extension file) h) :
    Delivered .parse ((h p c).parse file) t (load (Factory.ofRegistrations rs) exist file p t c) := by
  unfold load
  rw [(createFromExtension_iff rs _ h).mpr hh]
  simp only [hx, Bool.not_true, Bool.false_eq_true, if_false]
  exact finish_spec _ _ _

/-- C64: load with the parser registered last under a name. -/
theorem loadWith_spec {P C M : Type} {rs : List (Registration (P → C → Parser M))} {exist : Str → Bool} {file n : Str} (p : P)
    (t : Option (List Str)) (c : C) (hx : exist file = true) {h : P → C → Parser M} (hh : ForName rs n h) :
    Delivered .parse ((h p c).parse file) t (loadWith (Factory.ofRegistrations rs) exist file n p t c) := by
  unfold loadWith
  rw [(create_iff rs _ h).mpr hh]
  simp only [hx, Bool.not_true, Bool.false_eq_true, if_false]
  exact finish_spec _ _ _

/-- C64: write with the writer registered last for the extension of the file. -/
theorem write_spec {P C M D : Type} {rs : List (Registration (P → C → Writer C M D))} {file : Str} (m : M) (p : P)
    (t : Option (List Str)) (c : C) {h : P → C → Writer C M D} (hh : ForExtension rs (extension file) h) :
    Delivered .write ((h p c).write file m c) t (write (Factory.ofRegistrations rs) file m p t c) := by
  unfold write
  rw [(createFromExtension_iff rs _ h).mpr hh]
  exact finish_spec _ _ _

/-- C64: write with the writer registered last under a name. -/
theorem writeWith_spec {P C M D : Type} {rs : List (Registration (P → C → Writer C M D))} {file n : Str} (m : M) (p : P)
    (t : Option (List Str)) (c : C) {h : P → C → Writer C M D} (hh : ForName rs n h) :
    Delivered .write ((h p c).write file m c) t (writeWith (Factory.ofRegistrations rs) file m n p t c) := by
  unfold writeWith
  rw [(create_iff rs _ h).mpr hh]
  exact finish_spec _ _ _

/-! ### theorems: osm and bin files -/

/-- C64: the parser for osm files without an origin never gives a map. -/
theorem osm_no_origin {P X F M : Type} (o : OsmCore P X F M) (p : P) (file : Str) (h : o.isDefault p = true) :
    o.parse p file = .error .noOrigin ∨ (o.xml file = none ∧ o.parse p file = .error (.parse [])) := by
  unfold OsmCore.parse
  split
  · rename_i e; exact .inr ⟨e, rfl⟩
  · left; simp [parserProjector, h, bind, Except.bind]

/-- C64: with an origin, the parser for osm files gives the map; the errors of both steps are all reported, behind a headline. -/
theorem osm_parse {P X F M : Type} (o : OsmCore P X F M) (p : P) (file : Str) {x : X} (hx : o.xml file = some x) (h : o.isDefault p = false) :
    ∃ m errs, o.parse p file = .ok (m, errs) ∧ m = (o.loadMap p (o.read x).1).1 ∧
      (errs = [] ↔ (o.read x).2 = [] ∧ (o.loadMap p (o.read x).1).2 = []) ∧
      ∀ e, e ∈ (o.read x).2 ∨ e ∈ (o.loadMap p (o.read x).1).2 → (['\t', '-', ' '] ++ e) ∈ errs := by
  refine ⟨_, _, by unfold OsmCore.parse; rw [hx]; simp only [parserProjector, h]; rfl, rfl, ?_, ?_⟩
  · show buildErrorMessage _ (_ ++ _) = [] ↔ _
    unfold buildErrorMessage
    rw [← List.append_eq_nil_iff]
    split
    · rename_i hc; simpa [OsmCore.readFile] using hc
    · rename_i hc; simpa [OsmCore.readFile] using hc
  · intro e he
    show _ ∈ buildErrorMessage _ (_ ++ _)
    unfold buildErrorMessage
    have hm : e ∈ (o.read x).2 ++ (o.loadMap p (o.read x).1).2 := List.mem_append.mpr he
    rw [if_neg]
    · exact List.mem_cons_of_mem _ (List.mem_map.mpr ⟨e, hm, rfl⟩)
    · intro hc
      have : (o.read x).2 ++ (o.loadMap p (o.read x).1).2 = [] := by simpa [OsmCore.readFile] using hc
      rw [this] at hm; cases hm

/-- C64: writing osm files works without an origin as with one. -/
theorem osm_write_no_origin {P C F M D : Type} (o : OsmWriteCore P C F M D) (p : P) (file : Str) (m : M) (c : C) {d : D}
    (h : o.save file (o.writeMap p m c).1 c = some d) :
    ∃ errs, o.write p file m c = .ok (d, errs) ∧ (errs = [] ↔ (o.writeMap p m c).2 = []) := by
  refine ⟨buildErrorMessage o.writeIntro (o.writeMap p m c).2, ?_, ?_⟩
  · unfold OsmWriteCore.write
    simp only [writerProjector, bind, Except.bind, h]
    rfl
  · unfold buildErrorMessage
    split
    · rename_i hc; simpa using hc
    · rename_i hc; simpa using hc

/-- C64: a decimal point of the locale that is no dot ("The loaded map will have wrong coordinates!") is not reported: osm::read replaces the
errors collected before, so that load without a place for errors succeeds. Only std::cerr shows the warning. -/
theorem locale_warning_counterexample : ∃ (o : OsmCore Unit Unit Unit Unit) (w : Str), o.locale = some w ∧
    load (Factory.ofRegistrations [⟨['o'], ['.', 'o'], fun p (_ : Unit) => ⟨o.parse p⟩⟩]) (fun _ => true) ['m', '.', 'o'] () none () =
      ⟨.ok (), none⟩ ∧
    load (Factory.ofRegistrations [⟨['o'], ['.', 'o'], fun p (_ : Unit) => ⟨o.parse p⟩⟩]) (fun _ => true) ['m', '.', 'o'] () (some []) () =
      ⟨.ok (), some []⟩ :=
  ⟨⟨fun _ => false, fun _ => some (), fun _ => ((), []), fun _ _ => ((), []), some ['w'], ['i']⟩, ['w'], rfl, rfl, rfl⟩

/-- C64: the same when writing ("This will lead to invalid osm output!"): buildErrorMessage clears the errors. -/
theorem locale_write_counterexample : ∃ (o : OsmWriteCore Unit Unit Unit Unit Unit) (w : Str), o.locale = some w ∧
    write (Factory.ofRegistrations [⟨['o'], ['.', 'o'], fun p (_ : Unit) => ⟨o.write p⟩⟩]) ['m', '.', 'o'] () () none () = ⟨.ok (), none⟩ :=
  ⟨⟨fun _ => false, fun _ _ _ => ((), []), fun _ _ _ => some (), some ['w'], ['i']⟩, ['w'], rfl, rfl⟩

/-- C64: a file that cannot be written is reported as ParseError and not as WriteError, by the writers for osm and bin files. -/
theorem write_exception_counterexample {P C F M D : Type} (o : OsmWriteCore P C F M D) (p : P) (file : Str) (m : M) (c : C)
    (h : o.save file (o.writeMap p m c).1 c = none) (save : Str → M → Option D) (hs : save file m = none) :
    o.write p file m c = .error (.parse []) ∧ binWrite save file m = .error (.parse []) := by
  unfold OsmWriteCore.write binWrite
  simp only [writerProjector, bind, Except.bind, h, hs]
  exact ⟨trivial, trivial⟩

/-! ### examples -/

/-- the handlers of the library: whichever is registered first, ".osm" is the parser for osm files -/
example {H : Type} (osm bin : H) : ∀ rs : List (Registration H),
    rs.Perm [⟨"osm_handler".toList, ".osm".toList, osm⟩, ⟨"bin_handler".toList, ".bin".toList, bin⟩] →
      (Factory.ofRegistrations rs).createFromExtension (extension "maps/a.b/map.osm".toList) = .ok osm := by
  intro rs h
  rw [← (registration_order h.symm (by simp) (by simp)).2]
  rfl

/-- a handler that takes over an extension, keeping the old one reachable by name -/
example {H : Type} (osm mine : H) :
    (Factory.ofRegistrations [⟨['a'], ['.', 'o'], osm⟩, ⟨['b'], ['.', 'o'], mine⟩]).createFromExtension ['.', 'o'] = .ok mine ∧
    (Factory.ofRegistrations [⟨['a'], ['.', 'o'], osm⟩, ⟨['b'], ['.', 'o'], mine⟩]).create ['a'] = .ok osm ∧
    (Factory.ofRegistrations [⟨['b'], ['.', 'o'], osm⟩, ⟨['a'], [], mine⟩]).available = [['a'], ['b']] := ⟨rfl, rfl, rfl⟩

/-- errors, with and without a place for them -/
example : finish .parse (.ok ((), [['e']])) (some [['o', 'l', 'd']]) = ⟨.ok (), some [['e']]⟩ ∧
    finish .parse (.ok ((), [['e']])) none = (⟨.error (.parse [['e']]), none⟩ : Outcome Unit) := ⟨rfl, rfl⟩

end Verif.Io
