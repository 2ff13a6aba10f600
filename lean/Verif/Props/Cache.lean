import Std.Data.String.ToNat
import Verif.Model.Cache
import Verif.Lemmas.Composite
import Verif.Props.CompositeQuad
import Verif.Props.Nodes

/-!
# C47 Results do not depend on the history of requests

The histories here are arbitrary lists of calls, including calls that raise. Named nodes may be set at any
time; a call of `init_polynomials_with_customized_roots` with an integer key is excluded, and the last
theorem shows why.
-/

set_option autoImplicit false

namespace MPOpt
variable {K : Type} [Field K]

namespace Colloc
variable {o : Colloc K} {L : String → Option (List K)}

/-- The cache agrees with the scheme: what is stored under a degree is what the scheme defines for that
degree, and the named entries are `L`. -/
structure Coherent (o : Colloc K) (L : String → Option (List K)) (c : Cache K) : Prop where
  roots : ∀ n r, c.roots (.deg n) = some r → o.taus n = .ok r
  polys : ∀ n p, c.polys (.deg n) = some p → ∃ r, o.taus n = .ok r ∧ p = lagrangePolys o.method r
  lblRoots : ∀ s, c.roots (.lbl s) = L s
  lblPolys : ∀ s, c.polys (.lbl s) = (L s).map (lagrangePolys o.method)

/-- Nodes a key stands for. -/
def nodesOf (o : Colloc K) (L : String → Option (List K)) : Key → Py (List K)
  | .deg n => o.taus n
  | .lbl s => match L s with
    | some r => .ok r
    | none => .error .type

/-- From every coherent cache the request gives `v` and leaves a coherent cache. -/
def Keeps (o : Colloc K) (L : String → Option (List K)) {A : Type} (x : Req K A) (v : Py A) : Prop :=
  ∀ c, Coherent o L c → (x.run c).1 = v ∧ Coherent o L (x.run c).2

theorem keeps_pure {A : Type} (a : A) : Keeps o L (pure a) (.ok a) := fun _ h => ⟨rfl, h⟩

theorem keeps_lift {A : Type} (v : Py A) : Keeps o L (Req.lift v) v := fun _ h => ⟨rfl, h⟩

theorem run_bind {A B : Type} (x : Req K A) (f : A → Req K B) (c : Cache K) :
    (x >>= f).run c = match x.run c with
      | (.ok a, c') => (f a).run c'
      | (.error e, c') => (.error e, c') := by
  rcases h : x c with ⟨a, c'⟩
  have h' : x.run c = (a, c') := h
  rw [h']
  show (StateT.bind x (ExceptT.bindCont f)) c = _
  unfold StateT.bind
  rw [h]
  cases a <;> rfl

theorem keeps_bind {A B : Type} {x : Req K A} {v : Py A} {f : A → Req K B} {g : A → Py B}
    (hx : Keeps o L x v) (hf : ∀ a, v = .ok a → Keeps o L (f a) (g a)) :
    Keeps o L (x >>= f) (v >>= g) := by
  intro c hc
  obtain ⟨h1, h2⟩ := hx c hc
  rw [run_bind]
  rcases h : x.run c with ⟨a, c'⟩
  rw [h] at h1 h2
  subst h1
  cases hv : a with
  | error e => subst hv; exact ⟨rfl, h2⟩
  | ok b => subst hv; exact hf b rfl c' h2

theorem keeps_mapM {A B : Type} {f : A → Req K B} {g : A → Py B} (l : List A)
    (hf : ∀ a ∈ l, Keeps o L (f a) (g a)) : Keeps o L (l.mapM f) (l.mapM g) := by
  induction l with
  | nil => exact keeps_pure _
  | cons a l ih =>
    rw [List.mapM_cons, List.mapM_cons]
    refine keeps_bind (hf a (by simp)) fun b _ => ?_
    exact keeps_bind (ih fun a ha => hf a (by simp [ha])) fun bs _ => keeps_pure _

theorem coherent_empty : Coherent o (fun _ => none) Cache.empty :=
  ⟨fun _ _ h => by simp [Cache.empty] at h, fun _ _ h => by simp [Cache.empty] at h, fun _ => rfl, fun _ => rfl⟩

/-- Storing the scheme's nodes under a degree keeps the cache coherent. -/
theorem Coherent.put_deg {c : Cache K} (hc : Coherent o L c) {n : Nat} {r : List K} (h : o.taus n = .ok r) :
    Coherent o L (c.put (.deg n) r (lagrangePolys o.method r)) := by
  refine ⟨fun m s hs => ?_, fun m p hp => ?_, fun s => ?_, fun s => ?_⟩
  · by_cases e : m = n
    · subst e
      simp only [Cache.put, Function.update_self, Option.some.injEq] at hs
      rw [← hs]; exact h
    · have hk : Key.deg m ≠ .deg n := fun hh => e (by cases hh; rfl)
      simp only [Cache.put, Function.update_of_ne hk] at hs
      exact hc.roots m s hs
  · by_cases e : m = n
    · subst e
      simp only [Cache.put, Function.update_self, Option.some.injEq] at hp
      exact ⟨r, h, hp.symm⟩
    · have hk : Key.deg m ≠ .deg n := fun hh => e (by cases hh; rfl)
      simp only [Cache.put, Function.update_of_ne hk] at hp
      exact hc.polys m p hp
  · have hk : Key.lbl s ≠ .deg n := fun hh => by cases hh
    simp only [Cache.put, Function.update_of_ne hk]
    exact hc.lblRoots s
  · have hk : Key.lbl s ≠ .deg n := fun hh => by cases hh
    simp only [Cache.put, Function.update_of_ne hk]
    exact hc.lblPolys s

/-- Storing named nodes changes that name only. -/
theorem Coherent.put_lbl {c : Cache K} (hc : Coherent o L c) (s : String) (r : List K) :
    Coherent o (Function.update L s (some r)) (c.put (.lbl s) r (lagrangePolys o.method r)) := by
  refine ⟨fun m q hq => ?_, fun m p hp => ?_, fun s' => ?_, fun s' => ?_⟩
  · have hk : Key.deg m ≠ .lbl s := fun hh => by cases hh
    simp only [Cache.put, Function.update_of_ne hk] at hq
    exact hc.roots m q hq
  · have hk : Key.deg m ≠ .lbl s := fun hh => by cases hh
    simp only [Cache.put, Function.update_of_ne hk] at hp
    exact hc.polys m p hp
  · by_cases e : s' = s
    · subst e; simp [Cache.put]
    · have hk : Key.lbl s' ≠ .lbl s := fun hh => e (by cases hh; rfl)
      simp only [Cache.put, Function.update_of_ne hk, Function.update_of_ne e]
      exact hc.lblRoots s'
  · by_cases e : s' = s
    · subst e; simp [Cache.put]
    · have hk : Key.lbl s' ≠ .lbl s := fun hh => e (by cases hh; rfl)
      simp only [Cache.put, Function.update_of_ne hk, Function.update_of_ne e]
      exact hc.lblPolys s'

theorem run_initOne (k : Key) (c : Cache K) : (o.initOne k).run c = match o.tausKey k with
    | .ok r => (.ok (), c.put k r (lagrangePolys o.method r))
    | .error e => (.error e, c) := by
  unfold initOne
  rw [run_bind]
  have : (Req.lift (K := K) (o.tausKey k)).run c = (o.tausKey k, c) := rfl
  rw [this]
  cases o.tausKey k <;> rfl

theorem keeps_initOne (k : Key) : Keeps o L (o.initOne k) (o.tausKey k >>= fun _ => pure ()) := by
  intro c hc
  rw [run_initOne]
  cases k with
  | lbl s => exact ⟨rfl, hc⟩
  | deg n =>
    show ((match o.taus n with | .ok r => _ | .error e => _ : Py Unit × Cache K)).1 = (o.taus n >>= _) ∧
      Coherent o L (match o.taus n with | .ok r => _ | .error e => _ : Py Unit × Cache K).2
    cases h : o.taus n with
    | error e => exact ⟨rfl, hc⟩
    | ok r => exact ⟨rfl, hc.put_deg h⟩

theorem keeps_forM {A : Type} {f : A → Req K Unit} {g : A → Py Unit} (l : List A)
    (hf : ∀ a ∈ l, Keeps o L (f a) (g a)) : Keeps o L (l.forM f) (l.forM g) := by
  induction l with
  | nil => exact keeps_pure _
  | cons a l ih =>
    show Keeps o L (f a >>= fun _ => l.forM f) (g a >>= fun _ => l.forM g)
    exact keeps_bind (hf a (by simp)) fun _ _ => ih fun a ha => hf a (by simp [ha])

theorem keeps_initPolynomials (ks : List Key) : Keeps o L (o.initPolynomials ks)
    (ks.forM fun k => (o.tausKey k >>= fun _ => pure ())) :=
  keeps_forM ks fun k _ => keeps_initOne k

/-- The two dictionary entries a request works with. -/
def entry (o : Colloc K) (k : Key) : Req K (List K × List (Basis K)) := do
  o.ensure k
  let c ← get
  let r ← Req.item (c.roots k)
  let p ← Req.item (c.polys k)
  return (r, p)

theorem run_ensure (k : Key) (c : Cache K) : (o.ensure k).run c =
    if (c.roots k).isNone || (c.polys k).isNone then
      (match o.tausKey k with
        | .ok r => (.ok (), c.put k r (lagrangePolys o.method r))
        | .error e => (.error e, c))
    else (.ok (), c) := by
  unfold ensure
  rw [run_bind]
  show ((if (c.roots k).isNone || (c.polys k).isNone then o.initPolynomials [k] else pure ()) :
    Req K Unit).run c = _
  split
  · unfold initPolynomials
    show (o.initOne k >>= fun _ => pure ()).run c = _
    rw [run_bind, run_initOne]
    cases o.tausKey k <;> rfl
  · rfl

theorem run_entry_of {k : Key} {c c' : Cache K} {r : List K} {p : List (Basis K)}
    (h : (o.ensure k).run c = (.ok (), c')) (hr : c'.roots k = some r) (hp : c'.polys k = some p) :
    (o.entry k).run c = (.ok (r, p), c') := by
  unfold entry
  rw [run_bind, h]
  show (Req.item (c'.roots k) >>= fun r => Req.item (c'.polys k) >>= fun p => pure (r, p) :
    Req K (List K × List (Basis K))).run c' = _
  rw [hr, hp]; rfl

theorem keeps_entry (k : Key) : Keeps o L (o.entry k)
    (nodesOf o L k >>= fun r => pure (r, lagrangePolys o.method r)) := by
  intro c hc
  cases k with
  | lbl s =>
    cases hs : L s with
    | none =>
      have e : (o.ensure (.lbl s)).run c = (.error .type, c) := by
        rw [run_ensure, if_pos (by rw [hc.lblRoots, hs]; rfl)]; rfl
      have : (o.entry (.lbl s)).run c = (.error .type, c) := by
        unfold entry; rw [run_bind, e]
      rw [this]
      refine ⟨?_, hc⟩
      show _ = (nodesOf o L (.lbl s) >>= _)
      simp only [nodesOf, hs]; rfl
    | some r =>
      have hr := hc.lblRoots s
      have hp := hc.lblPolys s
      rw [hs] at hr hp
      have e : (o.ensure (.lbl s)).run c = (.ok (), c) := by
        rw [run_ensure, if_neg (by rw [hr, hp]; simp)]
      rw [run_entry_of e hr hp]
      refine ⟨?_, hc⟩
      simp only [nodesOf, hs]; rfl
  | deg n =>
    by_cases hm : ((c.roots (.deg n)).isNone || (c.polys (.deg n)).isNone) = true
    · cases ht : o.taus n with
      | error er =>
        have e : (o.ensure (.deg n)).run c = (.error er, c) := by
          rw [run_ensure, if_pos hm, show o.tausKey (.deg n) = o.taus n from rfl, ht]
        have : (o.entry (.deg n)).run c = (.error er, c) := by
          unfold entry; rw [run_bind, e]
        rw [this]
        exact ⟨by simp only [nodesOf, ht]; rfl, hc⟩
      | ok r =>
        have e : (o.ensure (.deg n)).run c = (.ok (), c.put (.deg n) r (lagrangePolys o.method r)) := by
          rw [run_ensure, if_pos hm, show o.tausKey (.deg n) = o.taus n from rfl, ht]
        rw [run_entry_of e (r := r) (p := lagrangePolys o.method r) (by simp [Cache.put])
          (by simp [Cache.put])]
        exact ⟨by simp only [nodesOf, ht]; rfl, hc.put_deg ht⟩
    · have e : (o.ensure (.deg n)).run c = (.ok (), c) := by
        rw [run_ensure, if_neg hm]
      simp only [Bool.or_eq_true, not_or, Option.isNone_iff_eq_none, ← ne_eq, Option.ne_none_iff_exists'] at hm
      obtain ⟨⟨r, hr⟩, ⟨p, hp⟩⟩ := hm
      have ht := hc.roots n r hr
      obtain ⟨r', ht', rfl⟩ := hc.polys n p hp
      rw [ht] at ht'; cases ht'
      rw [run_entry_of e hr hp]
      exact ⟨by simp only [nodesOf, ht]; rfl, hc⟩

theorem quadFrom_eq (m : Method) (r : List K) (a b : K) :
    quadFrom (lagrangePolys m r) r.length a b = .ok (quadWeights m r a b) := by
  have hl : (lagrangePolys m r).length = r.length := by simp [lagrangePolys]
  unfold quadFrom quadWeights
  rw [mapM_ok _ (fun i => ((lagrangePolys m r).getD i (.num [])).integral a b)]
  · congr 1
    apply List.ext_getElem
    · simp [hl]
    · intro i h1 h2
      have hi : i < (lagrangePolys m r).length := by simpa using h2
      simp [List.getElem?_eq_getElem hi]
  · intro i hi
    have hi : i < (lagrangePolys m r).length := by rw [hl]; simpa using hi
    rw [pyIdx_ok hi, py_bind_ok, List.getD_eq_getElem _ _ hi]; rfl

theorem keeps_getDiff (k : Key) (taus : Option (List K)) (order : Nat) :
    Keeps o L (o.getDiff k taus order)
      (nodesOf o L k >>= fun r => diffMatrix o.method r (taus.getD r) order) := by
  have e : o.getDiff k taus order =
      (o.entry k >>= fun rp => Req.lift (diffFrom rp.2 (taus.getD rp.1) order)) := by
    unfold getDiff entry
    simp only [bind_assoc, pure_bind]
  rw [e]
  have := keeps_bind (keeps_entry (o := o) (L := L) k)
    (f := fun rp => Req.lift (diffFrom rp.2 (taus.getD rp.1) order)) (fun rp _ => keeps_lift _)
  rw [bind_assoc] at this
  exact this

theorem keeps_getQuad (k : Key) (a b : Option K) :
    Keeps o L (o.getQuad k a b)
      (nodesOf o L k >>= fun r => pure (quadWeights o.method r (a.getD o.tau0) (b.getD o.tau1))) := by
  have e : o.getQuad k a b =
      (o.entry k >>= fun rp => Req.lift (quadFrom rp.2 rp.1.length (a.getD o.tau0) (b.getD o.tau1))) := by
    unfold getQuad entry
    simp only [bind_assoc, pure_bind]
  rw [e]
  have := keeps_bind (keeps_entry (o := o) (L := L) k)
    (f := fun rp => Req.lift (quadFrom rp.2 rp.1.length (a.getD o.tau0) (b.getD o.tau1)))
    (fun rp _ => keeps_lift _)
  rw [bind_assoc] at this
  simp only [pure_bind, quadFrom_eq] at this
  exact this

theorem keeps_getInterp (taus : List K) (k : Key) :
    Keeps o L (o.getInterp taus k)
      (nodesOf o L k >>= fun r => pure (interpMatrix o.method r taus)) := by
  have e : o.getInterp taus k =
      (o.entry k >>= fun rp => pure (interpFrom rp.2 rp.1.length taus)) := by
    unfold getInterp entry
    simp only [bind_assoc, pure_bind]
  rw [e]
  have := keeps_bind (keeps_entry (o := o) (L := L) k)
    (f := fun rp => pure (interpFrom rp.2 rp.1.length taus)) (fun rp _ => keeps_pure _)
  rw [bind_assoc] at this
  exact this

/-! ### Composite matrices -/

theorem foldlM_bind_ok {A B C : Type} {f : A → Py B} {F : A → B} {g : C → A → B → Py C} (l : List A)
    (h : ∀ a ∈ l, f a = .ok (F a)) (M : C) :
    l.foldlM (fun M a => f a >>= g M a) M = l.foldlM (fun M a => g M a (F a)) M := by
  induction l generalizing M with
  | nil => rfl
  | cons a l ih =>
    simp only [List.foldlM_cons, h a (by simp), py_bind_ok]
    exact bind_congr fun M' => ih (fun a ha => h a (by simp [ha])) M'

theorem foldlM_ok_all {A B C : Type} {f : A → Py B} {g : C → A → B → Py C} (l : List A) {M v : C}
    (h : l.foldlM (fun M a => f a >>= g M a) M = .ok v) : ∀ a ∈ l, ∃ b, f a = .ok b := by
  induction l generalizing M with
  | nil => simp
  | cons a l ih =>
    rw [List.foldlM_cons, py_bind_eq_ok] at h
    obtain ⟨M', h1, h2⟩ := h
    rw [py_bind_eq_ok] at h1
    obtain ⟨b, hb, -⟩ := h1
    intro a' ha'
    rcases List.mem_cons.1 ha' with rfl | ha'
    · exact ⟨b, hb⟩
    · exact ih h2 a' ha'

theorem mapM_ok_all {A B : Type} {f : A → Py B} (l : List A) {v : List B} (h : l.mapM f = .ok v) :
    ∀ a ∈ l, ∃ b, f a = .ok b := by
  induction l generalizing v with
  | nil => simp
  | cons a l ih =>
    rw [List.mapM_cons, py_bind_eq_ok] at h
    obtain ⟨b, hb, h⟩ := h
    rw [py_bind_eq_ok] at h
    obtain ⟨bs, hbs, -⟩ := h
    intro a' ha'
    rcases List.mem_cons.1 ha' with rfl | ha'
    · exact ⟨b, hb⟩
    · exact ih hbs a' ha'

theorem exists_values {A B : Type} {f : A → Py B} {P : A → Prop} (d : B) (h : ∀ a, P a → ∃ b, f a = .ok b) :
    ∃ F : A → B, ∀ a, P a → f a = .ok (F a) := by
  refine ⟨fun a => match f a with | .ok b => b | .error _ => d, fun a ha => ?_⟩
  obtain ⟨b, hb⟩ := h a ha
  simp only [hb]

/-- The dictionary built from an enumeration of the keys answers every key. -/
theorem dictItem_map {V : Type} (F : Nat → V) (ks : List Nat) {p : Nat} (h : p ∈ ks) :
    dictItem (ks.map fun p => (p, F p)) p = .ok (F p) := by
  unfold dictItem
  rw [List.find?_map]
  have : (ks.find? ((fun e : Nat × V => e.1 == p) ∘ fun p => (p, F p))) = some p := by
    rw [show ((fun e : Nat × V => e.1 == p) ∘ fun p => (p, F p)) = fun k => k == p from rfl]
    induction ks with
    | nil => simp at h
    | cons k ks ih =>
      rw [List.find?_cons]
      by_cases e : k = p
      · subst e; simp
      · rw [show (k == p) = false from by simpa using e]
        exact ih (by rcases List.mem_cons.1 h with h | h
                     · exact absurd h.symm e
                     · exact h)
  rw [this]; rfl

/-- `setBlock` part of the composite differentiation matrix. -/
def placeDiff (orders : List Nat) (M : Mat K) (pi : Nat × Nat) (D : Mat K) : Py (Mat K) :=
  if pi.2 = 0 then M.setBlock 0 (pi.1 + 1) 0 (pi.1 + 1) D
  else M.setBlock ((orders.take pi.2).sum + 1) pi.1 (orders.take pi.2).sum (1 + pi.1) (D.dropRows 1)

/-- The matrix of one degree. -/
def diffOf (o : Colloc K) (order p : Nat) : Py (Mat K) :=
  o.taus p >>= fun r => diffMatrix o.method r r order

theorem compDiffMatrix_eq (orders : List Nat) (order : Nat) : compDiffMatrix o orders order =
    orders.zipIdx.foldlM (fun M pi => diffOf o order pi.1 >>= placeDiff orders M pi)
      (Mat.zeros (orders.sum + 1) (orders.sum + 1)) := by
  unfold compDiffMatrix
  dsimp only
  congr 1
  funext M pi
  unfold diffOf
  rw [bind_assoc]
  rfl

theorem keeps_getCompDiff (orders ks : List Nat) (order : Nat) : Keeps o L (o.getCompDiff orders ks order)
    ((ks.mapM fun p => diffOf o order p >>= fun D => pure (p, D)) >>= fun D =>
      orders.zipIdx.foldlM (fun M pi => dictItem D pi.1 >>= placeDiff orders M pi)
        (Mat.zeros (orders.sum + 1) (orders.sum + 1))) := by
  unfold getCompDiff getDiffs
  refine keeps_bind (keeps_mapM ks fun p _ => ?_) fun D _ => keeps_lift _
  exact keeps_bind (keeps_getDiff (.deg p) none order) fun D _ => keeps_pure _

theorem mem_zipIdx_fst {A : Type} {l : List A} {pi : A × Nat} (h : pi ∈ l.zipIdx) : pi.1 ∈ l := by
  have := List.mem_zipIdx_iff_getElem?.1 h
  exact List.mem_of_getElem? this

theorem compDiff_iff {orders ks : List Nat} (hk : ∀ p, p ∈ ks ↔ p ∈ orders) (order : Nat) (M : Mat K) :
    ((ks.mapM fun p => diffOf o order p >>= fun D => pure (p, D)) >>= fun D =>
      orders.zipIdx.foldlM (fun M pi => dictItem D pi.1 >>= placeDiff orders M pi)
        (Mat.zeros (orders.sum + 1) (orders.sum + 1))) = .ok M ↔ compDiffMatrix o orders order = .ok M := by
  rw [compDiffMatrix_eq]
  have key : ∀ F : Nat → Mat K, (∀ p ∈ ks, diffOf o order p = .ok (F p)) →
      ((ks.mapM fun p => diffOf o order p >>= fun D => pure (p, D)) >>= fun D =>
        orders.zipIdx.foldlM (fun M pi => dictItem D pi.1 >>= placeDiff orders M pi)
          (Mat.zeros (orders.sum + 1) (orders.sum + 1))) =
      orders.zipIdx.foldlM (fun M pi => diffOf o order pi.1 >>= placeDiff orders M pi)
        (Mat.zeros (orders.sum + 1) (orders.sum + 1)) := by
    intro F hF
    rw [mapM_ok _ (fun p => (p, F p)) ks fun p hp => by rw [hF p hp]; rfl, py_bind_ok,
      foldlM_bind_ok (F := fun pi => F pi.1) _ fun pi hpi =>
        dictItem_map F ks ((hk _).2 (mem_zipIdx_fst hpi)),
      foldlM_bind_ok (F := fun pi => F pi.1) (f := fun pi : Nat × Nat => diffOf o order pi.1) _
        fun pi hpi => hF _ ((hk _).2 (mem_zipIdx_fst hpi))]
  have all : ((∀ p ∈ ks, ∃ D, diffOf o order p = .ok D) → ∃ F : Nat → Mat K, ∀ p ∈ ks,
      diffOf o order p = .ok (F p)) := by
    exact exists_values (Mat.zeros 0 0)
  constructor
  · intro h
    have h' := h
    rw [py_bind_eq_ok] at h'
    obtain ⟨D, hD, -⟩ := h'
    obtain ⟨F, hF⟩ := all fun p hp => by
      obtain ⟨b, hb⟩ := mapM_ok_all _ hD p hp
      rw [py_bind_eq_ok] at hb
      obtain ⟨D, hD, -⟩ := hb
      exact ⟨D, hD⟩
    rw [← key F hF]; exact h
  · intro h
    obtain ⟨F, hF⟩ := all fun p hp => by
      obtain ⟨i, hi, e⟩ := List.mem_iff_getElem.1 ((hk p).1 hp)
      exact foldlM_ok_all (f := fun pi : Nat × Nat => diffOf o order pi.1) _ h (p, i)
        (List.mem_zipIdx_iff_getElem?.2 (by rw [List.getElem?_eq_getElem hi, e]))
    rw [key F hF]; exact h

/-- Weights of one degree. -/
def quadOf (o : Colloc K) (p : Nat) : Py (List K) :=
  o.taus p >>= fun r => pure (quadWeights o.method r o.tau0 o.tau1)

/-- `get_composite_quadrature_weights` from the dictionary of weights. -/
def quadRest (orders : List Nat) (Q : List (Nat × List K)) : Py (List K) :=
  pyIdx orders 0 >>= fun p0 => dictItem Q p0 >>= fun w0 => pyIdx w0 0 >>= fun first =>
    (orders.mapM fun p => dictItem Q p >>= fun w => pure (w.drop 1)) >>= fun ws =>
      pure (first :: ws.flatten)

theorem keeps_getCompQuad (orders ks : List Nat) : Keeps o L (o.getCompQuad orders ks)
    ((ks.mapM fun p => quadOf o p >>= fun w => pure (p, w)) >>= quadRest orders) := by
  unfold getCompQuad getQuads quadRest
  refine keeps_bind (keeps_mapM ks fun p _ => ?_) fun Q _ => ?_
  · exact keeps_bind (keeps_getQuad (.deg p) none none) fun D _ => keeps_pure _
  · exact keeps_bind (keeps_lift _) fun _ _ => keeps_bind (keeps_lift _) fun _ _ =>
      keeps_bind (keeps_lift _) fun _ _ => keeps_bind (keeps_lift _) fun _ _ => keeps_pure _

theorem compQuad_iff {orders ks : List Nat} (hk : ∀ p, p ∈ ks ↔ p ∈ orders) (w : List K) :
    ((ks.mapM fun p => quadOf o p >>= fun w => pure (p, w)) >>= quadRest orders) = .ok w ↔
      compQuadWeights o orders = .ok w := by
  have e : compQuadWeights o orders = (orders.mapM (quadOf o) >>= fun w => pyIdx w 0 >>= fun w0 =>
      pyIdx w0 0 >>= fun first => pure (first :: (w.map fun wi => wi.drop 1).flatten)) := rfl
  rw [e]
  have key : ∀ F : Nat → List K, (∀ p ∈ ks, quadOf o p = .ok (F p)) →
      ((ks.mapM fun p => quadOf o p >>= fun w => pure (p, w)) >>= quadRest orders) =
      (orders.mapM (quadOf o) >>= fun w => pyIdx w 0 >>= fun w0 =>
        pyIdx w0 0 >>= fun first => pure (first :: (w.map fun wi => wi.drop 1).flatten)) := by
    intro F hF
    rw [mapM_ok _ (fun p => (p, F p)) ks fun p hp => by rw [hF p hp]; rfl, py_bind_ok,
      mapM_ok _ F orders fun p hp => hF p ((hk p).2 hp), py_bind_ok]
    unfold quadRest
    rw [mapM_ok _ (fun p => (F p).drop 1) orders fun p hp => by
      rw [dictItem_map F ks ((hk p).2 hp)]; rfl]
    cases orders with
    | nil => rfl
    | cons p0 rest =>
      rw [show pyIdx (p0 :: rest) 0 = .ok p0 from rfl, py_bind_ok, dictItem_map F ks ((hk p0).2 (by simp)),
        py_bind_ok, List.map_map]
      rfl
  have all : ((∀ p ∈ ks, ∃ D, quadOf o p = .ok D) → ∃ F : Nat → List K, ∀ p ∈ ks,
      quadOf o p = .ok (F p)) := by
    exact exists_values ([])
  constructor
  · intro h
    have h' := h
    rw [py_bind_eq_ok] at h'
    obtain ⟨D, hD, -⟩ := h'
    obtain ⟨F, hF⟩ := all fun p hp => by
      obtain ⟨b, hb⟩ := mapM_ok_all _ hD p hp
      rw [py_bind_eq_ok] at hb
      obtain ⟨D, hD, -⟩ := hb
      exact ⟨D, hD⟩
    rw [← key F hF]; exact h
  · intro h
    obtain ⟨F, hF⟩ := all fun p hp => by
      rw [py_bind_eq_ok] at h
      obtain ⟨w, hw, -⟩ := h
      exact mapM_ok_all _ hw p ((hk p).1 hp)
    rw [key F hF]; exact h

/-- The blocks first, then the assembly: same results as both together. -/
theorem assemble_iff (taus : List (List K)) (orders : List Nat) (blk : Nat → Nat → Py (Mat K)) (M : Mat K) :
    ((orders.zipIdx.mapM fun pi => blk pi.2 pi.1) >>= assemble taus orders) = .ok M ↔
      compBlocks orders taus blk = .ok M := by
  have e : compBlocks orders taus blk = orders.zipIdx.foldlM (fun M (pi : Nat × Nat) =>
      blk pi.2 pi.1 >>= fun B => pyIdx (taus.map List.length) pi.2 >>= fun nt =>
        if nt = 0 then pure M
        else M.setBlock (((taus.map List.length).take pi.2).sum) nt ((orders.take pi.2).sum) (1 + pi.1) B)
      (Mat.zeros (taus.map List.length).sum (orders.sum + 1)) := rfl
  rw [e]
  have key : ∀ F : Nat × Nat → Mat K, (∀ pi ∈ orders.zipIdx, blk pi.2 pi.1 = .ok (F pi)) →
      ((orders.zipIdx.mapM fun pi => blk pi.2 pi.1) >>= assemble taus orders) =
      orders.zipIdx.foldlM (fun M (pi : Nat × Nat) =>
        blk pi.2 pi.1 >>= fun B => pyIdx (taus.map List.length) pi.2 >>= fun nt =>
          if nt = 0 then pure M
          else M.setBlock (((taus.map List.length).take pi.2).sum) nt ((orders.take pi.2).sum) (1 + pi.1) B)
        (Mat.zeros (taus.map List.length).sum (orders.sum + 1)) := by
    intro F hF
    rw [mapM_ok _ F _ hF, py_bind_ok,
      foldlM_bind_ok (F := F) (f := fun pi : Nat × Nat => blk pi.2 pi.1)
        (g := fun (M : Mat K) pi B => pyIdx (taus.map List.length) pi.2 >>= fun nt =>
          if nt = 0 then pure M
          else M.setBlock (((taus.map List.length).take pi.2).sum) nt ((orders.take pi.2).sum) (1 + pi.1) B)
        _ hF]
    unfold assemble
    dsimp only
    have hB : ∀ pi ∈ orders.zipIdx, pyIdx (orders.zipIdx.map F) pi.2 = .ok (F pi) := by
      intro pi hpi
      obtain ⟨i, hi, rfl⟩ := List.mem_iff_getElem.1 hpi
      have h2 : (orders.zipIdx[i]).2 = i := by simp
      rw [pyIdx_eq_ok, List.getElem?_map, h2, List.getElem?_eq_getElem hi]; rfl
    have aux : ∀ (l : List (Nat × Nat)), (∀ pi ∈ l, pi ∈ orders.zipIdx) → ∀ M0 : Mat K,
        l.foldlM (fun M (pi : Nat × Nat) => pyIdx (taus.map List.length) pi.2 >>= fun nt =>
          if nt = 0 then pure M
          else pyIdx (orders.zipIdx.map F) pi.2 >>= fun B =>
            M.setBlock (((taus.map List.length).take pi.2).sum) nt ((orders.take pi.2).sum) (1 + pi.1) B) M0 =
        l.foldlM (fun M (pi : Nat × Nat) => pyIdx (taus.map List.length) pi.2 >>= fun nt =>
          if nt = 0 then pure M
          else M.setBlock (((taus.map List.length).take pi.2).sum) nt ((orders.take pi.2).sum)
            (1 + pi.1) (F pi)) M0 := by
      intro l
      induction l with
      | nil => intro _ _; rfl
      | cons pi l ih =>
        intro hl M0
        simp only [List.foldlM_cons, hB pi (hl pi (by simp)), py_bind_ok]
        exact bind_congr fun M' => ih (fun q hq => hl q (by simp [hq])) M'
    exact aux _ (fun _ h => h) _
  have all : ((∀ pi ∈ orders.zipIdx, ∃ D, blk pi.2 pi.1 = .ok D) → ∃ F : Nat × Nat → Mat K,
      ∀ pi ∈ orders.zipIdx, blk pi.2 pi.1 = .ok (F pi)) := by
    exact exists_values (Mat.zeros 0 0)
  constructor
  · intro h
    have h' := h
    rw [py_bind_eq_ok] at h'
    obtain ⟨D, hD, -⟩ := h'
    obtain ⟨F, hF⟩ := all (mapM_ok_all _ hD)
    rw [← key F hF]; exact h
  · intro h
    obtain ⟨F, hF⟩ := all (foldlM_ok_all (f := fun pi : Nat × Nat => blk pi.2 pi.1) _ h)
    rw [key F hF]; exact h

theorem keeps_getCompInterp (taus : List (List K)) (orders : List Nat) : Keeps o L (o.getCompInterp taus orders)
    ((orders.zipIdx.mapM fun pi => pyIdx taus pi.2 >>= fun t =>
      o.taus pi.1 >>= fun r => pure (interpMatrix o.method r t)) >>= assemble taus orders) := by
  unfold getCompInterp getInterps
  refine keeps_bind (keeps_mapM _ fun p _ => ?_) fun Q _ => keeps_lift _
  exact keeps_bind (keeps_lift _) fun t _ => keeps_getInterp t (.deg p.1)

theorem keeps_getCompInterpD (taus : List (List K)) (orders : List Nat) (order : Nat) :
    Keeps o L (o.getCompInterpD taus orders order)
    ((orders.zipIdx.mapM fun pi => pyIdx taus pi.2 >>= fun t =>
      o.taus pi.1 >>= fun r => diffMatrix o.method r t order) >>= assemble taus orders) := by
  unfold getCompInterpD getInterpDs
  refine keeps_bind (keeps_mapM _ fun p _ => ?_) fun Q _ => keeps_lift _
  exact keeps_bind (keeps_lift _) fun t _ => keeps_getDiff (.deg p.1) (some t) order

/-! ### Histories -/

/-- Named nodes a call sets, in order. -/
def Call.named : Call K → List (String × List K)
  | .custom d => d.filterMap fun kr => match kr.1 with
    | .lbl s => some (s, kr.2)
    | .deg _ => none
  | _ => []

/-- The call does not set nodes under an integer key. -/
def Call.NamesOnly : Call K → Prop
  | .custom d => ∀ kr ∈ d, ∃ s, kr.1 = .lbl s
  | _ => True

/-- The nodes last given for a name. -/
def lastNamed (calls : List (Call K)) (s : String) : Option (List K) :=
  ((calls.flatMap Call.named).reverse.find? fun e => e.1 == s).map (·.2)

/-- Adding named nodes one after the other. -/
def addNamed (L : String → Option (List K)) (l : List (String × List K)) : String → Option (List K) :=
  l.foldl (fun L e => Function.update L e.1 (some e.2)) L

omit [Field K] in
theorem addNamed_eq (l : List (String × List K)) (s : String) :
    addNamed (fun _ => none) l s = (l.reverse.find? fun e => e.1 == s).map (·.2) := by
  induction l using List.reverseRecOn with
  | nil => rfl
  | append_singleton l e ih =>
    unfold addNamed at ih ⊢
    rw [List.foldl_append, List.reverse_append]
    simp only [List.foldl_cons, List.foldl_nil, List.reverse_singleton, List.singleton_append,
      List.find?_cons]
    by_cases h : e.1 = s
    · subst h; simp
    · rw [show (e.1 == s) = false from by simpa using h, Function.update_of_ne (Ne.symm h)]
      exact ih

theorem run_initCustom (d : List (Key × List K)) {c : Cache K} (hc : Coherent o L c)
    (hd : ∀ kr ∈ d, ∃ s, kr.1 = .lbl s) :
    Coherent o (addNamed L (Call.named (.custom d))) ((o.initCustom d).run c).2 := by
  induction d generalizing L c with
  | nil => exact hc
  | cons kr d ih =>
    obtain ⟨k, r⟩ := kr
    obtain ⟨s, hs⟩ := hd (k, r) (by simp)
    simp only at hs
    subst hs
    exact ih (hc.put_lbl s r) fun kr hkr => hd kr (by simp [hkr])

theorem coherent_step {c : Cache K} (hc : Coherent o L c) (call : Call K) (hn : call.NamesOnly) :
    Coherent o (addNamed L call.named) (o.step c call) := by
  cases call with
  | custom d => exact run_initCustom d hc hn
  | init ks => exact (keeps_initPolynomials ks c hc).2
  | diff k taus order => exact (keeps_getDiff k taus order c hc).2
  | quad k a b => exact (keeps_getQuad k a b c hc).2
  | interp taus k => exact (keeps_getInterp taus k c hc).2
  | compDiff orders ks order => exact (keeps_getCompDiff orders ks order c hc).2
  | compQuad orders ks => exact (keeps_getCompQuad orders ks c hc).2
  | compInterp taus orders => exact (keeps_getCompInterp taus orders c hc).2
  | compInterpD taus orders order => exact (keeps_getCompInterpD taus orders order c hc).2

theorem coherent_foldl (calls : List (Call K)) {c : Cache K} (hc : Coherent o L c)
    (h : ∀ call ∈ calls, call.NamesOnly) :
    Coherent o (addNamed L (calls.flatMap Call.named)) (calls.foldl o.step c) := by
  induction calls generalizing L c with
  | nil => exact hc
  | cons call calls ih =>
    have := ih (coherent_step hc call (h call (by simp))) fun call hc => h call (by simp [hc])
    unfold addNamed at this ⊢
    rw [List.flatMap_cons, List.foldl_append]
    exact this

end Colloc

open Colloc
variable {o : Colloc K} {ks : List Nat} {calls : List (Call K)}

/-- **C47** After any history of calls the cache is coherent, and a name stands for the nodes last given
for it. -/
theorem C47_coherent (o : Colloc K) (ks : List Nat) (calls : List (Call K))
    (h : ∀ call ∈ calls, call.NamesOnly) : Coherent o (lastNamed calls) (o.after ks calls) := by
  have hL : lastNamed calls = addNamed (fun _ => none) (calls.flatMap Call.named) := by
    funext s; rw [addNamed_eq]; rfl
  rw [hL]
  exact coherent_foldl calls (keeps_initPolynomials _ _ coherent_empty).2 h

/-- **C47** The differentiation matrix of a degree, after any history, is that of the scheme's nodes. -/
theorem C47_diff (h : ∀ call ∈ calls, call.NamesOnly) (n : Nat) (taus : Option (List K)) (order : Nat) :
    ((o.getDiff (.deg n) taus order).run (o.after ks calls)).1 =
      (o.taus n >>= fun r => diffMatrix o.method r (taus.getD r) order) :=
  (keeps_getDiff _ _ _ _ (C47_coherent o ks calls h)).1

/-- **C47** So are quadrature weights … -/
theorem C47_quad (h : ∀ call ∈ calls, call.NamesOnly) (n : Nat) (a b : Option K) :
    ((o.getQuad (.deg n) a b).run (o.after ks calls)).1 =
      (o.taus n >>= fun r => pure (quadWeights o.method r (a.getD o.tau0) (b.getD o.tau1))) :=
  (keeps_getQuad _ _ _ _ (C47_coherent o ks calls h)).1

/-- **C47** … and interpolation matrices. -/
theorem C47_interp (h : ∀ call ∈ calls, call.NamesOnly) (n : Nat) (taus : List K) :
    ((o.getInterp taus (.deg n)).run (o.after ks calls)).1 =
      (o.taus n >>= fun r => pure (interpMatrix o.method r taus)) :=
  (keeps_getInterp _ _ _ (C47_coherent o ks calls h)).1

/-- **C47** Under a name, weights are those of the nodes last given for that name. -/
theorem C47_named (h : ∀ call ∈ calls, call.NamesOnly) {s : String} {r : List K}
    (hs : lastNamed calls s = some r) (a b : Option K) :
    ((o.getQuad (.lbl s) a b).run (o.after ks calls)).1 =
      .ok (quadWeights o.method r (a.getD o.tau0) (b.getD o.tau1)) := by
  rw [(keeps_getQuad _ _ _ _ (C47_coherent o ks calls h)).1]
  simp only [nodesOf, hs]; rfl

/-- `"c{}".format(seg)` (mpopt.py:1030, 1060). -/
def segName (seg : Nat) : String := "c" ++ seg.repr

theorem segName_inj {i j : Nat} (h : segName i = segName j) : i = j := by
  have := congrArg String.toList h
  simp only [segName, String.toList_append, List.append_cancel_left_eq] at this
  exact Nat.repr_injective (String.toList_inj.1 this)

/-- `roots_dict` of `compute_states_from_solution_dynamics` (mpopt.py:1028-1030). -/
def segNames (taus : List (List K)) : List (Key × List K) :=
  taus.zipIdx.map fun ti => (.lbl (segName ti.2), ti.1)

/-- **C47** The weights `compute_states_from_solution_dynamics` requests under `"c{seg}"` are those of the
target nodes of that segment in the current call, whatever was requested before (other phases reuse the
names). -/
theorem C47_segment_names (h : ∀ call ∈ calls, call.NamesOnly) {taus : List (List K)} {seg : Nat}
    {r : List K} (hr : taus[seg]? = some r) (a b : Option K) :
    ((o.getQuad (.lbl (segName seg)) a b).run
      (o.after ks (calls ++ [.custom (segNames taus)]))).1 =
      .ok (quadWeights o.method r (a.getD o.tau0) (b.getD o.tau1)) := by
  refine C47_named ?_ ?_ a b
  · intro call hc
    rcases List.mem_append.1 hc with hc | hc
    · exact h call hc
    · rw [List.mem_singleton.1 hc]
      intro kr hkr
      obtain ⟨ti, -, rfl⟩ := List.mem_map.1 hkr
      exact ⟨_, rfl⟩
  · have hn : Call.named (.custom (segNames taus)) = taus.zipIdx.map fun ti => (segName ti.2, ti.1) := by
      simp only [Call.named, segNames, List.filterMap_map]
      rw [← List.filterMap_eq_map]
      rfl
    unfold lastNamed
    rw [List.flatMap_append, List.flatMap_singleton, hn, List.reverse_append, List.find?_append]
    have : ((taus.zipIdx.map fun ti => (segName ti.2, ti.1)).reverse.find? fun e => e.1 == segName seg) =
        some (segName seg, r) := by
      have hmem : (segName seg, r) ∈ (taus.zipIdx.map fun ti => (segName ti.2, ti.1)).reverse := by
        rw [List.mem_reverse, List.mem_map]
        exact ⟨(r, seg), List.mem_zipIdx_iff_getElem?.2 hr, rfl⟩
      cases hf : ((taus.zipIdx.map fun ti => (segName ti.2, ti.1)).reverse.find?
          fun e => e.1 == segName seg) with
      | none =>
        have := List.find?_eq_none.1 hf _ hmem
        simp at this
      | some e =>
        have h1 := List.find?_some hf
        have h2 := List.mem_of_find?_eq_some hf
        rw [List.mem_reverse, List.mem_map] at h2
        obtain ⟨ti, hti, rfl⟩ := h2
        have hi := segName_inj (by simpa using h1)
        have := List.mem_zipIdx_iff_getElem?.1 hti
        rw [hi, hr] at this
        cases this
        rw [hi]
    rw [this]; rfl

/-- **C47** The composite matrices after any history, whatever the enumeration `ks'` of `set(orders)`, are
those computed without a cache (the functions of `Model/Collocation.lean`, on which all other theorems
rest). -/
theorem C47_composites (h : ∀ call ∈ calls, call.NamesOnly) {orders ks' : List Nat}
    (hk : ∀ p, p ∈ ks' ↔ p ∈ orders) (order : Nat) (taus : List (List K)) :
    (∀ M, ((o.getCompDiff orders ks' order).run (o.after ks calls)).1 = .ok M ↔
      compDiffMatrix o orders order = .ok M) ∧
    (∀ w, ((o.getCompQuad orders ks').run (o.after ks calls)).1 = .ok w ↔
      compQuadWeights o orders = .ok w) ∧
    (∀ M, ((o.getCompInterp taus orders).run (o.after ks calls)).1 = .ok M ↔
      compInterpMatrix o taus orders = .ok M) ∧
    (∀ M, ((o.getCompInterpD taus orders order).run (o.after ks calls)).1 = .ok M ↔
      compInterpDMatrix o taus orders order = .ok M) := by
  have hc := C47_coherent o ks calls h
  refine ⟨fun M => ?_, fun w => ?_, fun M => ?_, fun M => ?_⟩
  · rw [(keeps_getCompDiff _ _ _ _ hc).1, compDiff_iff hk]
  · rw [(keeps_getCompQuad _ _ _ hc).1, compQuad_iff hk]
  · rw [(keeps_getCompInterp _ _ _ hc).1]
    exact assemble_iff taus orders (fun i p => pyIdx taus i >>= fun t => o.taus p >>= fun r =>
      pure (interpMatrix o.method r t)) M
  · rw [(keeps_getCompInterpD _ _ _ _ hc).1]
    exact assemble_iff taus orders (fun i p => pyIdx taus i >>= fun t => o.taus p >>= fun r =>
      diffMatrix o.method r t order) M

/-- Radau nodes over ℚ. -/
def collocQ : Colloc ℚ := ⟨.numerical, -1, 1, tausFn libQ (-1) 1 "LGR"⟩

/-- A history with a failing request, named nodes set twice and a composite request. -/
def callsQ : List (Call ℚ) :=
  [.quad (.lbl "c0") none none, .custom [(.lbl "c0", [0, 1]), (.lbl "c1", [-1, 0])], .diff (.deg 2) none 1,
    .custom [(.lbl "c0", [-1, 1 / 2])], .compDiff [1, 2, 1] [2, 1] 1, .init [.lbl "c7", .deg 3]]

example : ∀ call ∈ callsQ, call.NamesOnly := by
  simp only [callsQ, Call.NamesOnly, List.mem_cons, List.not_mem_nil, or_false, forall_eq_or_imp, forall_eq]
  exact ⟨trivial, ⟨⟨_, rfl⟩, ⟨_, rfl⟩⟩, trivial, ⟨_, rfl⟩, trivial, trivial⟩

example : lastNamed callsQ "c0" = some [-1, 1 / 2] := by decide +kernel

example : (((collocQ.getQuad (.lbl "c0") none none).run (collocQ.after [1] callsQ)).1,
    ((collocQ.getQuad (.deg 1) none none).run (collocQ.after [1] callsQ)).1) =
    (.ok [2 / 3, 4 / 3], .ok [1, 1]) := by decide +kernel

/-- **C47 is false for integer keys** in `init_polynomials_with_customized_roots`, which nothing forbids: the
weights of degree 1 change from 1, 1 to 0, 2. -/
theorem C47_integer_key_false :
    (((collocQ.getQuad (.deg 1) none none).run (collocQ.after [1] [])).1,
      ((collocQ.getQuad (.deg 1) none none).run
        (collocQ.after [1] [.custom [(.deg 1, [-1, 0])]])).1) = (.ok [1, 1], .ok [0, 2]) := by
  decide +kernel

end MPOpt
