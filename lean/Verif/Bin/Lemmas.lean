import Verif.Bin.Spec

/-!
Saving and loading in step.
-/
namespace Verif.Bin

theorem run_bind {σ α β : Type} {f : StateT σ M α} {g : α → StateT σ M β} {s s' : σ} {x : α} (h : f s = pure (x, s')) : (f >>= g) s = g x s' := by
  show StateT.bind f g s = _
  unfold StateT.bind
  rw [h, pure_bind]

/-! ### invariants -/

/-- how far the loading of an object is: complete, allocated, or constructed with its first pointers to regulatory elements loaded -/
inductive Stage where
  | done | alloc | slots (n : Nat)
  deriving DecidableEq

/-- Helper of the proofs: the objects that have been begun. -/
def Stage.handled : Stage → Nat → Prop
  | .done, _ => True
  | .alloc, _ => False
  | .slots n, j => j < n

/-- Helper of the proofs: the regulatory elements of a lanelet or area. -/
def Obj.regs : Obj → List (Option Addr)
  | .ll d => d.regs
  | .ar d => d.regs
  | _ => []

/-- Helper of the proofs: with other regulatory elements. -/
def Obj.setRegs (l : List (Option Addr)) : Obj → Obj
  | .ll d => .ll { d with regs := l }
  | .ar d => .ar { d with regs := l }
  | o => o

/-- Helper of the proofs: without centerline. -/
def Obj.noCenter : Obj → Obj
  | .ll d => .ll { d with center := none }
  | o => o

/-- Helper of the proofs: what is known of an object at a stage of loading. -/
def Stage.view : Stage → Obj → Obj
  | .done, o => o
  | _, o => o.noCenter

section
variable (H : List Obj) (V : Addr → Prop)

/-- Helper of the proofs: invariant of saving. -/
structure SInv (s : SaveSt) : Prop where
  nodup : s.table.Nodup
  valid : ∀ a ∈ s.table, V a
  ids : ∀ id, id ∈ s.ids ↔ ∃ r ∈ s.table, ∃ d, H[r]? = some (.re d) ∧ d.id = id

/-- Helper of the proofs: what saving has added. -/
structure Saved (s s' : SaveSt) (τ : List Tok) : Prop where
  out : s'.out = s.out ++ τ
  pre : s.table <+: s'.table
  inv : SInv H V s'
  closed : ∀ a ∈ s'.table, a ∈ s.table ∨ ∀ o, H[a]? = some o → ∀ c ∈ o.pointers, c ∈ s'.table

/-- the loader gives the objects the numbers of the saver -/
def Compat (φ : Addr → Addr) (t : List Addr) : Prop := ∀ (i : Nat) a, t[i]? = some a → φ a = i

/-- Helper of the proofs: invariant of loading, beside saving. -/
structure Inv (φ : Addr → Addr) (s : SaveSt) (prog : Addr → Stage) (ℓ : LoadSt) : Prop where
  len : ℓ.objs.length = s.table.length
  ent : ℓ.entered = s.ids
  fresh : ∀ a, a ∉ s.table → prog a = .done
  unseen : ∀ id, id ∉ s.ids → ℓ.done id = none ∧ ℓ.waiting id = []
  res : ∀ r d, r ∈ s.table → H[r]? = some (.re d) → ℓ.done d.id = if prog r = .done then some (φ r) else none
  obj : ∀ (i : Nat) a o, s.table[i]? = some a → H[a]? = some o → prog a ≠ .alloc →
    ∃ l, ℓ.objs[i]? = some (some (((prog a).view (o.rename φ)).setRegs l)) ∧ l.length = o.regs.length ∧
      ∀ (j : Nat) r d, o.regs[j]? = some (some r) → H[r]? = some (.re d) → (prog a).handled j →
        r ∈ s.table ∧ (prog r = .done → l[j]? = some (some (φ r))) ∧ (prog r ≠ .done → some (i, j) ∈ ℓ.waiting d.id)
  wait : ∀ r d σ, r ∈ s.table → H[r]? = some (.re d) → prog r ≠ .done → σ ∈ ℓ.waiting d.id →
    ∃ (i j : Nat) (a : Addr) (o : Obj), σ = some (i, j) ∧ s.table[i]? = some a ∧ H[a]? = some o ∧ o.regs[j]? = some (some r)

/-- reading what was written leads to the value -/
def Loaded {α : Type} (φ : Addr → Addr) (s s' : SaveSt) (τ : List Tok) (g : L α) (v : α) : Prop :=
  ∀ ℓ prog rest, Inv H φ s prog ℓ → ℓ.inp = τ ++ rest → ∃ ℓ', g ℓ = pure (v, ℓ') ∧ ℓ'.inp = rest ∧ Inv H φ s' prog ℓ'

/-- saving succeeds, and loading gives the value -/
def RT {α : Type} (f : S Unit) (g : (Addr → Addr) → L α) (v : (Addr → Addr) → α) (t : List Addr) (s : SaveSt) : Prop :=
  SInv H V s → ∃ s' τ, f s = pure ((), s') ∧ Saved H V s s' τ ∧ (∀ c ∈ t, c ∈ s'.table) ∧ ∀ φ, Compat φ s'.table → Loaded H φ s s' τ (g φ) (v φ)

end

section
variable {H : List Obj} {V : Addr → Prop}

theorem Saved.refl {s : SaveSt} (h : SInv H V s) : Saved H V s s [] := ⟨by simp, List.prefix_rfl, h, fun _ ha => .inl ha⟩

theorem Saved.trans {s s' s'' : SaveSt} {τ τ' : List Tok} (h : Saved H V s s' τ) (h' : Saved H V s' s'' τ') : Saved H V s s'' (τ ++ τ') where
  out := by rw [h'.out, h.out, List.append_assoc]
  pre := h.pre.trans h'.pre
  inv := h'.inv
  closed := by
    intro a ha
    rcases h'.closed a ha with h1 | h1
    · rcases h.closed a h1 with h2 | h2
      · exact .inl h2
      · exact .inr fun o ho c hc => h'.pre.subset (h2 o ho c hc)
    · exact .inr h1

theorem Compat.prefix {φ : Addr → Addr} {t t' : List Addr} (h : Compat φ t') (hp : t <+: t') : Compat φ t := by
  intro i a hi
  obtain ⟨u, rfl⟩ := hp
  exact h i a (by rw [List.getElem?_append_left (List.getElem?_eq_some_iff.mp hi).1]; exact hi)

theorem Inv.emit {φ : Addr → Addr} {s : SaveSt} {prog : Addr → Stage} {ℓ : LoadSt} (h : Inv H φ s prog ℓ) (out : List Tok) (inp : List Tok) (top : Option Addr) :
    Inv H φ { s with out := out } prog { ℓ with inp := inp, top := top } := ⟨h.len, h.ent, h.fresh, h.unseen, h.res, h.obj, h.wait⟩

theorem SInv.emit {s : SaveSt} (h : SInv H V s) (out : List Tok) : SInv H V { s with out := out } := ⟨h.nodup, h.valid, h.ids⟩

theorem Saved.emit {s : SaveSt} (h : SInv H V s) (t : Tok) : Saved H V s { s with out := s.out ++ [t] } [t] :=
  ⟨rfl, List.prefix_rfl, h.emit _, fun _ ha => .inl ha⟩

/-- one token -/
theorem RT_tok {α : Type} {s : SaveSt} (t : Tok) (g : L α) (v : α) (hg : ∀ (ℓ : LoadSt) rest, ℓ.inp = t :: rest → g ℓ = pure (v, { ℓ with inp := rest })) :
    RT H V (emit t) (fun _ => g) (fun _ => v) [] s := by
  intro hs
  refine ⟨_, [t], rfl, Saved.emit hs t, by simp, ?_⟩
  intro φ _ ℓ prog rest hi hinp
  exact ⟨_, hg ℓ rest hinp, rfl, hi.emit _ _ _⟩

theorem next_run {ℓ : LoadSt} {t : Tok} {rest : List Tok} (h : ℓ.inp = t :: rest) : next ℓ = pure (t, { ℓ with inp := rest }) := by
  unfold next
  rw [run_bind (show (get : L LoadSt) ℓ = pure (ℓ, ℓ) from rfl), h]
  rfl

theorem RT_num {s : SaveSt} (n : Int) : RT H V (emit (.num n)) (fun _ => getNum) (fun _ => n) [] s :=
  RT_tok _ _ _ fun ℓ rest h => by unfold getNum; rw [run_bind (next_run h)]; rfl

theorem RT_size {s : SaveSt} (n : Nat) : RT H V (emit (.size n)) (fun _ => getSize) (fun _ => n) [] s :=
  RT_tok _ _ _ fun ℓ rest h => by unfold getSize; rw [run_bind (next_run h)]; rfl

theorem RT_flag {s : SaveSt} (n : Bool) : RT H V (emit (.flag n)) (fun _ => getFlag) (fun _ => n) [] s :=
  RT_tok _ _ _ fun ℓ rest h => by unfold getFlag; rw [run_bind (next_run h)]; rfl

theorem RT_str {s : SaveSt} (n : String) : RT H V (emit (.str n)) (fun _ => getStr) (fun _ => n) [] s :=
  RT_tok _ _ _ fun ℓ rest h => by unfold getStr; rw [run_bind (next_run h)]; rfl

theorem RT_attrs {s : SaveSt} (n : Attrs) : RT H V (emit (.attrs n)) (fun _ => getAttrs) (fun _ => n) [] s :=
  RT_tok _ _ _ fun ℓ rest h => by unfold getAttrs; rw [run_bind (next_run h)]; rfl

theorem RT_pure {α : Type} {s : SaveSt} (v : (Addr → Addr) → α) : RT H V (pure ()) (fun φ => pure (v φ)) v [] s := by
  intro hs
  refine ⟨s, [], rfl, Saved.refl hs, by simp, ?_⟩
  intro φ _ ℓ prog rest hi hinp
  exact ⟨ℓ, rfl, by simpa using hinp, hi⟩

theorem RT_bind {α β : Type} {s : SaveSt} {f f' : S Unit} {g : (Addr → Addr) → L α} {v : (Addr → Addr) → α} {t t' : List Addr}
    {k : (Addr → Addr) → α → L β} {w : (Addr → Addr) → β} (h1 : RT H V f g v t s)
    (h2 : ∀ s', s.table <+: s'.table → RT H V f' (fun φ => k φ (v φ)) w t' s') :
    RT H V (f >>= fun _ => f') (fun φ => g φ >>= k φ) w (t ++ t') s := by
  intro hs
  obtain ⟨s1, τ1, a1, a2, a3, a4⟩ := h1 hs
  obtain ⟨s2, τ2, b1, b2, b3, b4⟩ := h2 s1 a2.pre a2.inv
  refine ⟨s2, τ1 ++ τ2, by rw [run_bind a1, b1], a2.trans b2, ?_, ?_⟩
  · intro c hc
    rcases List.mem_append.mp hc with hc | hc
    · exact b2.pre.subset (a3 c hc)
    · exact b3 c hc
  · intro φ hφ ℓ prog rest hi hinp
    obtain ⟨ℓ1, c1, c2, c3⟩ := a4 φ (hφ.prefix b2.pre) ℓ prog (τ2 ++ rest) hi (by rw [hinp, List.append_assoc])
    obtain ⟨ℓ2, d1, d2, d3⟩ := b4 φ hφ ℓ1 prog rest c3 c2
    exact ⟨ℓ2, (run_bind c1).trans d1, d2, d3⟩

theorem RT_map {α β : Type} {s : SaveSt} {f : S Unit} {g : (Addr → Addr) → L α} {v : (Addr → Addr) → α} {t : List Addr} (h : (Addr → Addr) → α → β) (h1 : RT H V f g v t s) :
    RT H V f (fun φ => g φ >>= fun x => pure (h φ x)) (fun φ => h φ (v φ)) t s := by
  intro hs
  obtain ⟨s1, τ1, a1, a2, a3, a4⟩ := h1 hs
  refine ⟨s1, τ1, a1, a2, a3, ?_⟩
  intro φ hφ ℓ prog rest hi hinp
  obtain ⟨ℓ1, c1, c2, c3⟩ := a4 φ hφ ℓ prog rest hi hinp
  exact ⟨ℓ1, run_bind c1, c2, c3⟩

theorem RT_congr {α : Type} {s : SaveSt} {f : S Unit} {g : (Addr → Addr) → L α} {v v' : (Addr → Addr) → α} {t t' : List Addr} (h : RT H V f g v t s)
    (hv : ∀ φ, v φ = v' φ) (ht : ∀ c ∈ t', c ∈ t) : RT H V f g v' t' s := by
  intro hs
  obtain ⟨s1, τ1, a1, a2, a3, a4⟩ := h hs
  refine ⟨s1, τ1, a1, a2, fun c hc => a3 c (ht c hc), ?_⟩
  intro φ hφ
  rw [← hv φ]
  exact a4 φ hφ

/-- a loop -/
theorem RT_forM {α β : Type} (f : β → S Unit) (g : L α) (v : β → (Addr → Addr) → α) (t : β → List Addr) : ∀ (l : List β) (s : SaveSt)
    (_ : ∀ x ∈ l, ∀ s', s.table <+: s'.table → RT H V (f x) (fun _ => g) (v x) (t x) s') (is : List Nat), is.length = l.length →
    RT H V (l.forM f) (fun _ => is.mapM fun _ => g) (fun φ => l.map fun x => v x φ) (l.flatMap t) s := by
  intro l
  induction l with
  | nil =>
    intro s _ is his
    have : is = [] := by simpa using his
    subst this
    exact RT_pure fun _ => []
  | cons x l ih =>
    intro s h is his
    match is, his with
    | i :: is, his =>
      have h1 : RT H V (f x >>= fun _ => l.forM f) (fun φ => g >>= fun y => (is.mapM fun _ => g) >>= fun ys => pure (y :: ys))
          (fun φ => v x φ :: l.map fun x => v x φ) (t x ++ l.flatMap t) s := by
        apply RT_bind (k := fun φ y => (is.mapM fun _ => g) >>= fun ys => pure (y :: ys)) (h x (by simp) s List.prefix_rfl)
        intro s' hs'
        have h2 := ih s' (fun y hy s'' hs'' => h y (by simp [hy]) s'' (hs'.trans hs'')) is (by simpa using his)
        intro hs
        obtain ⟨s1, τ1, a1, a2, a3, a4⟩ := h2 hs
        refine ⟨s1, τ1, a1, a2, a3, ?_⟩
        intro φ hφ ℓ prog rest hi hinp
        obtain ⟨ℓ1, c1, c2, c3⟩ := a4 φ hφ ℓ prog rest hi hinp
        exact ⟨ℓ1, run_bind c1, c2, c3⟩
      have e1 : (x :: l).forM f = (f x >>= fun _ => l.forM f) := rfl
      have e2 : ((i :: is).mapM fun _ => g) = (g >>= fun y => (is.mapM fun _ => g) >>= fun ys => pure (y :: ys)) := List.mapM_cons
      rw [e1, e2]
      exact h1

/-- a loop with its length -/
theorem RT_list {α β : Type} (f : β → S Unit) (g : L α) (v : β → (Addr → Addr) → α) (t : β → List Addr) (l : List β) (s : SaveSt)
    (h : ∀ x ∈ l, ∀ s', s.table <+: s'.table → RT H V (f x) (fun _ => g) (v x) (t x) s') :
    RT H V (emit (.size l.length) >>= fun _ => l.forM f) (fun _ => getSize >>= fun n => (List.range n).mapM fun _ => g)
      (fun φ => l.map fun x => v x φ) (l.flatMap t) s :=
  RT_bind (t := []) (k := fun _ n => (List.range n).mapM fun _ => g) (RT_size l.length)
    (fun s' hs' => RT_forM f g v t l s' (fun x hx s'' hs'' => h x hx s'' (hs'.trans hs'')) _ (by simp))

end
end Verif.Bin
