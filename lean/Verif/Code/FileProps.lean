import Verif.Code.BaseProps
import Verif.Code.FileModel
set_option linter.unusedSimpArgs false
/-
C139: what a program writes to CurrentSrc is what is in the file of its Src.
-/
namespace Micro.Code
open Micro Micro.Funcs

/-! ### Specification -/

/-- What a program has asked for so far: the names of the sources, in the order of the Src calls that returned, each with the text written to it. -/
abbrev Sources := List (List Char × List Nat)

/-- Text added to the k-th source. -/
def Sources.add (l : Sources) (k : Nat) (vals : List (List Nat)) : Sources := l.modify k (fun x => (x.1, x.2 ++ vals.flatten))

/-- One more operation: a Src that returns starts a source with nothing in it; a Write to a writer adds to its source, and a Write to the current writer
adds to the latest source. Everything else, and every call that panics, adds nothing. -/
def Sources.tell (l : Sources) : POp × Res × Option Micro.IO.WErr → Sources
  | (.call (.src name), .returned, _) => l ++ [(name, [])]
  | (.write k vals, _, _) => l.add k vals
  | (.writeCurrent vals, .returned, _) => l.add (l.length - 1) vals
  | _ => l

/-- What a program has asked for in a history. -/
def told (trace : List (POp × Res × Option Micro.IO.WErr)) : Sources := trace.foldl Sources.tell []

/-- Where the sources are: Src("name") is the file "/name". -/
def Sources.paths (os : OS) (l : Sources) : List Path := l.map (fun x => os.resolve ('/' :: x.1))

/-- The history does not call SetBasePath, which removes files. -/
def NoBase (ops : List POp) : Prop := ∀ op ∈ ops, ∀ bp, op ≠ .call (.setBasePath bp)

/-- A program that starts with a new generator. -/
def start (disk : Disk) : Prog := ⟨Gen.zero, disk, [], none⟩

/-! ### Lemmas -/

theorem putAt_end (c bs : List Nat) : putAt c c.length bs = c ++ bs := by
  unfold putAt
  by_cases h : bs = []
  · simp [h]
  · simp [h, List.drop_eq_nil_of_le]

/-- Writing values one after the other is writing at the end, if the position is there. -/
theorem writeAll_file (k : Nat) : ∀ (vals : List (List Nat)) (d : Disk) (ws : List Handle),
    Micro.IO.writeAll (Micro.IO.stringWriter (fileWriter k)) (d, ws) vals =
      (none, (vals.foldl (fun (s : Disk × List Handle) v => (fileWriter k s v).2.2) (d, ws))) := by
  intro vals
  induction vals with
  | nil => intro d ws; rfl
  | cons v vs ih =>
    intro d ws
    have h : Micro.IO.stringWriter (fileWriter k) (d, ws) v = (none, (fileWriter k (d, ws) v).2.2) := by
      unfold Micro.IO.stringWriter fileWriter
      cases hk : ws[k]? <;> simp [hk]
    simp only [Micro.IO.writeAll, h, List.foldl_cons]
    exact ih _ _

/-- The effect of a Write: the file of the writer, if there is one, and its position. -/
theorem writes_file (k : Nat) (h : Handle) : ∀ (vals : List (List Nat)) (d : Disk) (ws : List Handle), ws[k]? = some h →
    h.off = (d.data h.path h.version).length →
    (vals.foldl (fun (s : Disk × List Handle) v => (fileWriter k s v).2.2) (d, ws)) =
      ({ d with data := Function.update d.data h.path (Function.update (d.data h.path) h.version (d.data h.path h.version ++ vals.flatten)) },
        ws.set k { h with off := h.off + vals.flatten.length }) := by
  intro vals
  induction vals generalizing h with
  | nil =>
    intro d ws hk ho
    have : ws.set k h = ws := by
      apply List.ext_getElem?
      intro i
      rw [List.getElem?_set]
      by_cases hi : k = i
      · subst hi
        obtain ⟨hl, hv⟩ := List.getElem?_eq_some_iff.1 hk
        simp [hl, hv]
      · simp [hi]
    simp [this]
  | cons v vs ih =>
    intro d ws hk ho
    have hl : k < ws.length := (List.getElem?_eq_some_iff.1 hk).1
    have e1 : (fileWriter k (d, ws) v).2.2 = ({ d with data := Function.update d.data h.path (Function.update (d.data h.path) h.version (d.data h.path h.version ++ v)) },
        ws.set k { h with off := h.off + v.length }) := by
      unfold fileWriter
      simp [hk, ho, putAt_end]
    rw [List.foldl_cons, e1, ih { h with off := h.off + v.length } _ _ (by simp [List.getElem?_set, hl]) (by simp [ho])]
    simp [List.flatten_cons, Nat.add_assoc, List.append_assoc]

/-- A write through a writer that does not exist. -/
theorem writes_nofile (k : Nat) : ∀ (vals : List (List Nat)) (d : Disk) (ws : List Handle), ws[k]? = none →
    (vals.foldl (fun (s : Disk × List Handle) v => (fileWriter k s v).2.2) (d, ws)) = (d, ws) := by
  intro vals
  induction vals with
  | nil => intro d ws _; rfl
  | cons v vs ih =>
    intro d ws hk
    have : (fileWriter k (d, ws) v).2.2 = (d, ws) := by unfold fileWriter; simp [hk]
    rw [List.foldl_cons, this, ih d ws hk]

/-- Whatever is written where, the writers stay writers of the same files, and other files are as before. -/
theorem writes_any (k : Nat) : ∀ (vals : List (List Nat)) (d : Disk) (ws : List Handle),
    let s := (vals.foldl (fun (s : Disk × List Handle) v => (fileWriter k s v).2.2) (d, ws))
    s.1.fs = d.fs ∧ s.1.version = d.version ∧ s.2.map (fun h => (h.path, h.version)) = ws.map (fun h => (h.path, h.version)) ∧
    ∀ q, (∀ h ∈ ws, h.path ≠ q) → s.1.data q = d.data q := by
  intro vals
  induction vals with
  | nil => intro d ws; exact ⟨rfl, rfl, rfl, fun _ _ => rfl⟩
  | cons v vs ih =>
    intro d ws
    cases hk : ws[k]? with
    | none =>
      rw [writes_nofile k _ d ws hk]
      exact ⟨rfl, rfl, rfl, fun _ _ => rfl⟩
    | some h =>
      have e1 : (fileWriter k (d, ws) v).2.2 = ({ d with data := Function.update d.data h.path (Function.update (d.data h.path) h.version (putAt (d.data h.path h.version) h.off v)) },
          ws.set k { h with off := h.off + v.length }) := by unfold fileWriter; simp [hk]
      have e2 : (ws.set k { h with off := h.off + v.length }).map (fun h => (h.path, h.version)) = ws.map (fun h => (h.path, h.version)) := by
        apply List.ext_getElem?
        intro i
        rw [List.getElem?_map, List.getElem?_map, List.getElem?_set]
        by_cases hi : k = i
        · subst hi
          obtain ⟨hl, hv⟩ := List.getElem?_eq_some_iff.1 hk
          simp [hl, hv]
        · simp [hi]
      simp only [List.foldl_cons, e1]
      obtain ⟨i1, i2, i3, i4⟩ := ih { d with data := Function.update d.data h.path (Function.update (d.data h.path) h.version (putAt (d.data h.path h.version) h.off v)) }
          (ws.set k { h with off := h.off + v.length })
      refine ⟨i1, i2, i3.trans e2, fun q hq => ?_⟩
      rw [i4 q (fun h' hh' => ?_)]
      · refine Function.update_of_ne ?_ _ _
        exact (hq h (List.mem_of_getElem? hk)).symm
      · have : (h'.path, h'.version) ∈ (ws.set k { h with off := h.off + v.length }).map (fun h => (h.path, h.version)) := List.mem_map.2 ⟨h', hh', rfl⟩
        rw [e2] at this
        obtain ⟨h2, m1, m2⟩ := List.mem_map.1 this
        simp only [Prod.mk.injEq] at m2
        rw [← m2.1]
        exact hq h2 m1

/-- What map2Test says of the map of sources. -/
theorem map2Test_get2 (m : GoMap (List Char) (GoMap (List Char) Bool)) (a b : List Char) : map2Test m a b = (get2 m (a, b)).isSome := by
  cases m with
  | none => rfl
  | some f =>
    rcases hx : f a with _ | _ | q <;> simp [map2Test, GoMap.isNil, GoMap.get, get2, hx]

theorem create_spec (root : Bool) (fs : FS) (p : Path) :
    ((create root fs p).1 = none ↔ Reached root fs p ∧ ∀ u, fs p ≠ some (.dir u)) ∧
    ((create root fs p).1 = none → (create root fs p).2 = Function.update fs p (some .file)) ∧
    ((create root fs p).1 ≠ none → (create root fs p).2 = fs) := by
  rw [← walk_reached0]
  unfold create
  cases hw : walk root fs [] p with
  | some e => simp
  | none =>
    simp only [true_and]
    rcases hf : fs p with _ | _ | u <;> simp [hf]

/-- The outcome of Src with the current directory empty. -/
theorem src_cases (os : OS) (g : Gen) (fs : FS) (name : List Char) (hc : g.currentDir = []) :
    ((src os g fs name).1 = .returned ↔ (get2 g.srcs ([], name)).isSome = false ∧ Reached os.root fs (os.resolve ('/' :: name)) ∧
      ∀ u, fs (os.resolve ('/' :: name)) ≠ some (.dir u)) ∧
    ((src os g fs name).1 = .returned → ∃ m, (src os g fs name).2 = ({ g with srcs := m, currentSrc := some (os.resolve ('/' :: name)) },
        Function.update fs (os.resolve ('/' :: name)) (some .file)) ∧ ∀ k, get2 m k = if (([] : List Char), name) = k then some true else get2 g.srcs k) ∧
    ((src os g fs name).1 ≠ .returned → (src os g fs name).1 = .panicked ∧ (src os g fs name).2 = (g, fs)) := by
  unfold src
  simp only [hc, List.nil_append, List.singleton_append, map2Test_get2]
  obtain ⟨c1, c2, c3⟩ := create_spec os.root fs (os.resolve ('/' :: name))
  cases ht : (get2 g.srcs ([], name)).isSome with
  | true => simp
  | false =>
    simp only [Bool.false_eq_true, if_false, true_and]
    rw [← c1]
    cases hcr : create os.root fs (os.resolve ('/' :: name)) with
    | mk e f' =>
      rw [hcr] at c2 c3
      cases e with
      | some e =>
        have := c3 (by simp)
        simp only at this
        subst this
        simp
      | none =>
        have := c2 rfl
        simp only at this
        obtain ⟨m, h1, h2⟩ := runMap2_spec g.srcs (.set (([] : List Char), name) true)
        have h1' : map2Set g.srcs [] name true = some m := h1
        simp only [h1', true_iff, ne_eq, not_true_eq_false, false_implies, and_true, true_implies]
        refine ⟨trivial, m, by rw [this], h2⟩

theorem setBase_keeps (os : OS) (g : Gen) (fs : FS) (bp : List Char) : (setBasePath os g fs bp).2.1.currentDir = g.currentDir ∧
    (setBasePath os g fs bp).2.1.srcs = g.srcs := by
  unfold setBasePath
  dsimp only
  repeat' split
  all_goals exact ⟨rfl, rfl⟩

theorem dir_keeps (os : OS) (g : Gen) (fs : FS) (n : List Char) : (dir os g fs n).2.1.currentDir = g.currentDir ∧
    (dir os g fs n).2.1.srcs = g.srcs ∧ (dir os g fs n).2.1.basePath = g.basePath ∧ (g.basePath.present = false → (dir os g fs n).2.2 = fs) := by
  unfold dir getBasePath
  cases hb : g.basePath.present with
  | false => simp
  | true =>
    simp only [if_true]
    repeat' split
    all_goals simp

/-- The state of a program and what it was told so far. -/
structure FInv (os : OS) (s : Prog) (l : Sources) : Prop where
  cd : s.gen.currentDir = []
  cur : s.current = if l = [] then none else some (l.length - 1)
  names : ∀ n, (get2 s.gen.srcs ([], n)).isSome = true ↔ n ∈ l.map Prod.fst
  paths : s.writers.map (fun h => h.path) = l.paths os

theorem FInv.len {os : OS} {s : Prog} {l : Sources} (i : FInv os s l) : s.writers.length = l.length := by
  have := congrArg List.length i.paths
  simpa [Sources.paths] using this

theorem add_len (l : Sources) (k : Nat) (vals : List (List Nat)) : (l.add k vals).length = l.length := by simp [Sources.add]

theorem add_names (l : Sources) (k : Nat) (vals : List (List Nat)) : (l.add k vals).map Prod.fst = l.map Prod.fst := by
  apply List.ext_getElem?
  intro i
  simp only [Sources.add, List.getElem?_map, List.getElem?_modify]
  by_cases hi : k = i
  · subst hi
    cases l[k]? <;> simp
  · simp [hi]

theorem paths_names (os : OS) (l : Sources) : l.paths os = (l.map Prod.fst).map (fun n => os.resolve ('/' :: n)) := by
  simp [Sources.paths]

theorem add_nil (l : Sources) (k : Nat) (vals : List (List Nat)) : l.add k vals = [] ↔ l = [] := by
  rw [← List.length_eq_zero_iff, add_len, List.length_eq_zero_iff]

theorem writeTo_eq (k : Nat) (vals : List (List Nat)) (s : Prog) : writeTo k vals s =
    (none, { s with disk := (vals.foldl (fun (s : Disk × List Handle) v => (fileWriter k s v).2.2) (s.disk, s.writers)).1,
                    writers := (vals.foldl (fun (s : Disk × List Handle) v => (fileWriter k s v).2.2) (s.disk, s.writers)).2 }) := by
  unfold writeTo
  rw [writeAll_file]

theorem FInv.write {os : OS} {s : Prog} {l : Sources} (i : FInv os s l) (k j : Nat) (vals : List (List Nat)) :
    FInv os (writeTo k vals s).2 (l.add j vals) := by
  rw [writeTo_eq]
  obtain ⟨a1, a2, a3, a4⟩ := writes_any k vals s.disk s.writers
  refine ⟨i.cd, ?_, ?_, ?_⟩
  · simp only [add_nil, add_len]
    exact i.cur
  · intro n
    rw [add_names]
    exact i.names n
  · have h := congrArg (List.map Prod.fst) a3
    simp only [List.map_map] at h
    rw [paths_names, add_names, ← paths_names, ← i.paths]
    exact h

/-- A call that is not a returning Src leaves the sources alone. -/
theorem call_other (os : OS) (s : Prog) (op : GOp) (h : ∀ name, op = .src name → (runG os (s.gen, s.disk.fs) op).1 ≠ .returned) :
    pstep os s (.call op) = ((runG os (s.gen, s.disk.fs) op).1, none,
      { s with gen := (runG os (s.gen, s.disk.fs) op).2.1, disk := { s.disk with fs := (runG os (s.gen, s.disk.fs) op).2.2 } }) := by
  unfold pstep
  cases hr : runG os (s.gen, s.disk.fs) op with
  | mk r gf =>
    obtain ⟨g, fs⟩ := gf
    cases op with
    | src name =>
      have := h name rfl
      rw [hr] at this
      cases r with
      | returned => exact absurd rfl this
      | panicked => simp only [hr]
    | setBasePath bp => simp only [hr]
    | dir n => simp only [hr]

theorem call_src (os : OS) (s : Prog) (name : List Char) (hc : s.gen.currentDir = []) (h : (src os s.gen s.disk.fs name).1 = .returned) :
    ∃ m, (∀ k, get2 m k = if (([] : List Char), name) = k then some true else get2 s.gen.srcs k) ∧
    pstep os s (.call (.src name)) = (.returned, none,
      ⟨{ s.gen with srcs := m, currentSrc := some (os.resolve ('/' :: name)) },
       (s.disk.opened (Function.update s.disk.fs (os.resolve ('/' :: name)) (some .file)) (os.resolve ('/' :: name))).1,
       s.writers ++ [(s.disk.opened (Function.update s.disk.fs (os.resolve ('/' :: name)) (some .file)) (os.resolve ('/' :: name))).2],
       some s.writers.length⟩) := by
  obtain ⟨m, h1, h2⟩ := (src_cases os s.gen s.disk.fs name hc).2.1 h
  refine ⟨m, h2, ?_⟩
  have : runG os (s.gen, s.disk.fs) (.src name) = (.returned, { s.gen with srcs := m, currentSrc := some (os.resolve ('/' :: name)) },
      Function.update s.disk.fs (os.resolve ('/' :: name)) (some .file)) := by
    show src os s.gen s.disk.fs name = _
    rw [← h1, ← h]
  unfold pstep
  simp only [this]

theorem FInv.step {os : OS} {s : Prog} {l : Sources} (i : FInv os s l) (op : POp) :
    FInv os (pstep os s op).2.2 (l.tell (op, (pstep os s op).1, (pstep os s op).2.1)) := by
  cases op with
  | write k vals => exact i.write k k vals
  | writeCurrent vals =>
    unfold pstep
    rw [show currentSrc s = s.current from rfl, i.cur]
    by_cases hl : l = []
    · simp only [hl, if_true]
      simpa [hl, Sources.tell] using i
    · simp only [hl, if_false]
      exact i.write _ _ vals
  | call op =>
    by_cases h : ∀ name, op = .src name → (runG os (s.gen, s.disk.fs) op).1 ≠ .returned
    · rw [call_other os s op h]
      have hl : l.tell (.call op, (runG os (s.gen, s.disk.fs) op).1, none) = l := by
        cases op with
        | src name =>
          have := h name rfl
          cases hr : (runG os (s.gen, s.disk.fs) (.src name)).1 with
          | returned => exact absurd hr this
          | panicked => rfl
        | setBasePath bp => cases (runG os (s.gen, s.disk.fs) (.setBasePath bp)).1 <;> rfl
        | dir n => cases (runG os (s.gen, s.disk.fs) (.dir n)).1 <;> rfl
      rw [hl]
      have hk : (runG os (s.gen, s.disk.fs) op).2.1.currentDir = s.gen.currentDir ∧ (runG os (s.gen, s.disk.fs) op).2.1.srcs = s.gen.srcs := by
        cases op with
        | src name =>
          have := ((src_cases os s.gen s.disk.fs name i.cd).2.2 (h name rfl)).2
          show (src os s.gen s.disk.fs name).2.1.currentDir = _ ∧ (src os s.gen s.disk.fs name).2.1.srcs = _
          rw [this]
          exact ⟨rfl, rfl⟩
        | setBasePath bp => exact setBase_keeps os _ _ bp
        | dir n => exact ⟨(dir_keeps os _ _ n).1, (dir_keeps os _ _ n).2.1⟩
      refine ⟨hk.1.trans i.cd, i.cur, fun n => ?_, i.paths⟩
      rw [show ({ s with gen := (runG os (s.gen, s.disk.fs) op).2.1, disk := { s.disk with fs := (runG os (s.gen, s.disk.fs) op).2.2 } } : Prog).gen.srcs = s.gen.srcs from hk.2]
      exact i.names n
    · obtain ⟨name, rfl, h⟩ : ∃ name, op = .src name ∧ (runG os (s.gen, s.disk.fs) op).1 = .returned := by
        by_contra hc
        exact h (fun name e hr => hc ⟨name, e, hr⟩)
      obtain ⟨m, h1, h2⟩ := call_src os s name i.cd h
      rw [h2]
      refine ⟨i.cd, ?_, fun n => ?_, ?_⟩
      · simp [Sources.tell, i.len]
      · simp only [h1, Sources.tell, List.map_append, List.map_cons, List.map_nil, List.mem_append, List.mem_singleton, ← i.names n]
        by_cases e : name = n
        · simp [e]
        · simp [e, Ne.symm e]
      · simp [Sources.tell, Sources.paths, i.paths, Disk.opened]

/-- The files have the text. -/
def FText (s : Prog) (l : Sources) : Prop := ∀ (k : Nat) (h : Handle) (x : List Char × List Nat), s.writers[k]? = some h → l[k]? = some x →
  s.disk.version h.path = h.version ∧ s.disk.data h.path h.version = x.2 ∧ h.off = x.2.length

theorem FInv.other {os : OS} {s : Prog} {l : Sources} (i : FInv os s l) (hn : (l.paths os).Nodup) (j k : Nat) (hj hk : Handle)
    (h1 : s.writers[j]? = some hj) (h2 : s.writers[k]? = some hk) (hjk : j ≠ k) : hj.path ≠ hk.path := by
  rw [← i.paths] at hn
  intro e
  have e1 : (s.writers.map (fun h => h.path))[j]? = some hj.path := by simp [h1]
  have e2 : (s.writers.map (fun h => h.path))[k]? = some hj.path := by simp [h2, e]
  have l1 : j < (s.writers.map (fun h => h.path)).length := (List.getElem?_eq_some_iff.1 e1).1
  exact hjk ((List.getElem?_inj l1 hn).1 (e1.trans e2.symm))

theorem FText.write {os : OS} {s : Prog} {l : Sources} (i : FInv os s l) (t : FText s l) (hn : (l.paths os).Nodup) (k : Nat) (vals : List (List Nat)) :
    FText (writeTo k vals s).2 (l.add k vals) := by
  rw [writeTo_eq]
  cases hk : s.writers[k]? with
  | none =>
    rw [writes_nofile k vals _ _ hk]
    have : l.add k vals = l := by
      unfold Sources.add
      refine List.modify_eq_self ?_
      have := List.getElem?_eq_none_iff.1 hk
      rw [i.len] at this
      exact this
    rw [this]
    exact t
  | some h =>
    have hlt : k < l.length := by
      have := (List.getElem?_eq_some_iff.1 hk).1
      rwa [i.len] at this
    obtain ⟨t1, t2, t3⟩ := t k h l[k] hk (List.getElem?_eq_getElem hlt)
    rw [writes_file k h vals s.disk s.writers hk (by rw [t3, t2])]
    intro j hj x e1 e2
    simp only at e1 ⊢
    rw [List.getElem?_set] at e1
    simp only [Sources.add, List.getElem?_modify] at e2
    by_cases hkj : k = j
    · subst hkj
      have hl2 : k < s.writers.length := (List.getElem?_eq_some_iff.1 hk).1
      simp only [if_true, hl2, Option.some.injEq] at e1
      simp only [if_true, List.getElem?_eq_getElem hlt, Option.map_eq_map, Option.map_some, Option.some.injEq] at e2
      subst e1 e2
      simp [t1, t2, t3]
    · simp only [hkj, if_false] at e1 e2
      simp only [Option.map_eq_map, Option.map_id_fun', id_eq] at e2
      obtain ⟨u1, u2, u3⟩ := t j hj x e1 e2
      have hne := i.other hn j k hj h e1 hk (Ne.symm hkj)
      refine ⟨u1, ?_, u3⟩
      rw [Function.update_of_ne hne]
      exact u2

theorem FText.step {os : OS} {s : Prog} {l : Sources} (i : FInv os s l) (t : FText s l) (op : POp)
    (hn : ((l.tell (op, (pstep os s op).1, (pstep os s op).2.1)).paths os).Nodup) :
    FText (pstep os s op).2.2 (l.tell (op, (pstep os s op).1, (pstep os s op).2.1)) := by
  cases op with
  | write k vals =>
    have hn : (Sources.paths os (l.add k vals)).Nodup := hn
    rw [paths_names, add_names, ← paths_names] at hn
    exact FText.write i t hn k vals
  | writeCurrent vals =>
    unfold pstep at hn ⊢
    rw [show currentSrc s = s.current from rfl, i.cur] at hn ⊢
    by_cases hl : l = []
    · simp only [hl, if_true] at hn ⊢
      simpa [hl, Sources.tell] using t
    · simp only [hl, if_false] at hn ⊢
      have hn : (Sources.paths os (l.add _ vals)).Nodup := hn
      rw [paths_names, add_names, ← paths_names] at hn
      exact FText.write i t hn _ vals
  | call op =>
    by_cases h : ∀ name, op = .src name → (runG os (s.gen, s.disk.fs) op).1 ≠ .returned
    · rw [call_other os s op h]
      have hl : l.tell (.call op, (runG os (s.gen, s.disk.fs) op).1, none) = l := by
        cases op with
        | src name =>
          have := h name rfl
          cases hr : (runG os (s.gen, s.disk.fs) (.src name)).1 with
          | returned => exact absurd hr this
          | panicked => rfl
        | setBasePath bp => cases (runG os (s.gen, s.disk.fs) (.setBasePath bp)).1 <;> rfl
        | dir n => cases (runG os (s.gen, s.disk.fs) (.dir n)).1 <;> rfl
      rw [hl]
      exact t
    · obtain ⟨name, rfl, h⟩ : ∃ name, op = .src name ∧ (runG os (s.gen, s.disk.fs) op).1 = .returned := by
        by_contra hc
        exact h (fun name e hr => hc ⟨name, e, hr⟩)
      obtain ⟨m, h1, h2⟩ := call_src os s name i.cd h
      rw [h2] at hn ⊢
      have hn : (Sources.paths os (l ++ [(name, [])])).Nodup := hn
      have hnew : os.resolve ('/' :: name) ∉ l.paths os := by
        intro hm
        simp only [Sources.paths, List.map_append, List.map_cons, List.map_nil] at hn hm
        have := (List.nodup_append.1 hn).2.2 _ hm _ (List.mem_singleton.2 rfl)
        exact this rfl
      intro k hk x e1 e2
      simp only [Disk.opened] at e1 ⊢
      have e2 : (l ++ [(name, [])])[k]? = some x := e2
      by_cases hkl : k < l.length
      · rw [List.getElem?_append_left (by rw [i.len]; exact hkl)] at e1
        rw [List.getElem?_append_left hkl] at e2
        obtain ⟨u1, u2, u3⟩ := t k hk x e1 e2
        have hp : hk.path ≠ os.resolve ('/' :: name) := by
          intro e
          apply hnew
          rw [← i.paths, ← e]
          exact List.mem_map.2 ⟨hk, List.mem_of_getElem? e1, rfl⟩
        rw [Function.update_of_ne hp, Function.update_of_ne hp]
        exact ⟨u1, u2, u3⟩
      · have hk2 : k = l.length := by
          have := (List.getElem?_eq_some_iff.1 e2).1
          simp at this
          omega
        subst hk2
        rw [List.getElem?_append_right (by rw [i.len])] at e1
        rw [List.getElem?_append_right (Nat.le_refl _)] at e2
        simp only [i.len, Nat.sub_self, List.getElem?_cons_zero, Option.some.injEq] at e1 e2
        subst e1 e2
        simp

theorem tell_prefix (os : OS) (l : Sources) (x : POp × Res × Option Micro.IO.WErr) : l.paths os <+: (l.tell x).paths os := by
  have h : ∀ k vals, l.paths os <+: (l.add k vals).paths os := by
    intro k vals
    rw [paths_names os (l.add k vals), add_names, ← paths_names]
  unfold Sources.tell
  split
  · simp [Sources.paths]
  · exact h _ _
  · exact h _ _
  · exact List.prefix_refl _

theorem tells_prefix (os : OS) : ∀ (tr : List (POp × Res × Option Micro.IO.WErr)) (l : Sources), l.paths os <+: (tr.foldl Sources.tell l).paths os := by
  intro tr
  induction tr with
  | nil => intro l; exact List.prefix_refl _
  | cons x tr ih => intro l; exact (tell_prefix os l x).trans (ih _)

/-- The whole history. -/
theorem run_inv (os : OS) : ∀ (ops : List POp) (s : Prog) (l : Sources), FInv os s l →
    FInv os (prun os s ops).2 ((prun os s ops).1.foldl Sources.tell l) ∧
    (FText s l → (((prun os s ops).1.foldl Sources.tell l).paths os).Nodup → FText (prun os s ops).2 ((prun os s ops).1.foldl Sources.tell l)) := by
  intro ops
  induction ops with
  | nil => intro s l i; exact ⟨i, fun t _ => t⟩
  | cons op ops ih =>
    intro s l i
    obtain ⟨j1, j2⟩ := ih _ _ (i.step op)
    refine ⟨j1, fun t hn => ?_⟩
    exact j2 (FText.step i t op (hn.sublist (tells_prefix os _ _).sublist)) hn

theorem start_inv (os : OS) (disk : Disk) : FInv os (start disk) [] := ⟨rfl, rfl, fun n => by simp [start, Gen.zero, get2, GoMap.get], rfl⟩
theorem start_text (disk : Disk) : FText (start disk) [] := by intro k h x e1; simp [start] at e1

/-- Without SetBasePath there is no base path, Dir does nothing, and only the paths of sources change. -/
theorem run_kept (os : OS) : ∀ (ops : List POp) (s : Prog) (l : Sources), FInv os s l → s.gen.basePath.present = false → NoBase ops →
    (∀ p ∈ l.paths os, s.disk.fs p = some .file) →
    (∀ p ∈ ((prun os s ops).1.foldl Sources.tell l).paths os, (prun os s ops).2.disk.fs p = some .file) ∧
    (∀ q, q ∉ ((prun os s ops).1.foldl Sources.tell l).paths os → (prun os s ops).2.disk.fs q = s.disk.fs q ∧
      (prun os s ops).2.disk.version q = s.disk.version q ∧ (prun os s ops).2.disk.data q = s.disk.data q) := by
  intro ops
  induction ops with
  | nil => intro s l i _ _ hf; exact ⟨hf, fun _ _ => ⟨rfl, rfl, rfl⟩⟩
  | cons op ops ih =>
    intro s l i hb hno hf
    have hpre : ∀ q, q ∉ ((prun os s (op :: ops)).1.foldl Sources.tell l).paths os → q ∉ (l.tell (op, (pstep os s op).1, (pstep os s op).2.1)).paths os := by
      intro q hq hm
      exact hq ((tells_prefix os (prun os (pstep os s op).2.2 ops).1 _).subset hm)
    have key : (pstep os s op).2.2.gen.basePath.present = false ∧
        (∀ p ∈ (l.tell (op, (pstep os s op).1, (pstep os s op).2.1)).paths os, (pstep os s op).2.2.disk.fs p = some .file) ∧
        ∀ q, q ∉ (l.tell (op, (pstep os s op).1, (pstep os s op).2.1)).paths os → (pstep os s op).2.2.disk.fs q = s.disk.fs q ∧
          (pstep os s op).2.2.disk.version q = s.disk.version q ∧ (pstep os s op).2.2.disk.data q = s.disk.data q := by
      have hw : ∀ k j vals, (writeTo k vals s).2.gen.basePath.present = false ∧
          (∀ p ∈ (l.add j vals).paths os, (writeTo k vals s).2.disk.fs p = some .file) ∧
          ∀ q, q ∉ (l.add j vals).paths os → (writeTo k vals s).2.disk.fs q = s.disk.fs q ∧
            (writeTo k vals s).2.disk.version q = s.disk.version q ∧ (writeTo k vals s).2.disk.data q = s.disk.data q := by
        intro k j vals
        rw [writeTo_eq, paths_names, add_names, ← paths_names]
        obtain ⟨a1, a2, a3, a4⟩ := writes_any k vals s.disk s.writers
        refine ⟨hb, fun p hp => ?_, fun q hq => ⟨congrFun a1 q, congrFun a2 q, a4 q (fun h hh e => ?_)⟩⟩
        · exact (congrFun a1 p).trans (hf p hp)
        · apply hq
          rw [← i.paths, ← e]
          exact List.mem_map.2 ⟨h, hh, rfl⟩
      cases op with
      | write k vals => exact hw k k vals
      | writeCurrent vals =>
        unfold pstep
        rw [show currentSrc s = s.current from rfl, i.cur]
        by_cases hl : l = []
        · simp only [hl, if_true]
          refine ⟨hb, ?_, fun _ _ => by simp⟩
          simp [Sources.tell, Sources.paths]
        · simp only [hl, if_false]
          exact hw _ _ vals
      | call op =>
        cases op with
        | setBasePath bp => exact absurd rfl (hno _ (List.mem_cons_self) bp)
        | dir n =>
          rw [call_other os s _ (by intro name e; cases e)]
          have hk := dir_keeps os s.gen s.disk.fs n
          have e1 : (runG os (s.gen, s.disk.fs) (.dir n)).2.2 = s.disk.fs := hk.2.2.2 hb
          have e2 : l.tell (.call (.dir n), (runG os (s.gen, s.disk.fs) (.dir n)).1, none) = l := by
            cases (runG os (s.gen, s.disk.fs) (.dir n)).1 <;> rfl
          rw [e1, e2]
          refine ⟨?_, hf, fun _ _ => ⟨rfl, rfl, rfl⟩⟩
          exact (congrArg Union.Maybe.present hk.2.2.1).trans hb
        | src name =>
          by_cases h : (src os s.gen s.disk.fs name).1 = .returned
          · obtain ⟨m, h1, h2⟩ := call_src os s name i.cd h
            rw [h2]
            have hp : Sources.paths os (l.tell (.call (.src name), .returned, none)) = l.paths os ++ [os.resolve ('/' :: name)] := by
              simp [Sources.tell, Sources.paths]
            simp only [hp]
            refine ⟨hb, fun p hp => ?_, fun q hq => ?_⟩
            · simp only [Disk.opened]
              by_cases e : p = os.resolve ('/' :: name)
              · rw [e, Function.update_self]
              · rw [Function.update_of_ne e]
                simp only [List.mem_append, List.mem_singleton, e, or_false] at hp
                exact hf p hp
            · simp only [List.mem_append, List.mem_singleton, not_or] at hq
              simp only [Disk.opened]
              rw [Function.update_of_ne hq.2, Function.update_of_ne hq.2, Function.update_of_ne hq.2]
              exact ⟨rfl, rfl, rfl⟩
          · rw [call_other os s (.src name) (fun n e => by cases e; exact h)]
            obtain ⟨e0, e1⟩ := (src_cases os s.gen s.disk.fs name i.cd).2.2 h
            have e2 : runG os (s.gen, s.disk.fs) (.src name) = (.panicked, s.gen, s.disk.fs) := by
              show src os s.gen s.disk.fs name = _
              rw [← e0, ← e1]
            rw [e2]
            exact ⟨hb, hf, fun _ _ => ⟨rfl, rfl, rfl⟩⟩
    obtain ⟨j1, j2⟩ := ih _ _ (i.step op) key.1 (fun o ho => hno o (List.mem_cons_of_mem _ ho)) key.2.1
    refine ⟨j1, fun q hq => ?_⟩
    obtain ⟨a1, a2, a3⟩ := j2 q hq
    obtain ⟨b1, b2, b3⟩ := key.2.2 q (hpre q hq)
    exact ⟨a1.trans b1, a2.trans b2, a3.trans b3⟩

/-! ### C139 -/

/-- C139. After any history of calls and writes, if the sources made so far are at different paths, then each file that is still there contains exactly
what was written to its writer, in the order of the writes, and nothing else. Partial: see `c139_same_path_refuted` for sources of different names at one
path. -/
theorem c139_texts_partial (os : OS) (disk : Disk) (ops : List POp) (hn : ((told (prun os (start disk) ops).1).paths os).Nodup)
    (name : List Char) (text : List Nat) (hm : (name, text) ∈ told (prun os (start disk) ops).1) :
    (prun os (start disk) ops).2.disk.fs (os.resolve ('/' :: name)) = some .file →
    (prun os (start disk) ops).2.disk.content (os.resolve ('/' :: name)) = some text := by
  intro hf
  obtain ⟨i, t⟩ := run_inv os ops _ _ (start_inv os disk)
  have t := t (start_text disk) hn
  obtain ⟨k, hk⟩ := List.getElem?_of_mem hm
  have hp : ((prun os (start disk) ops).2.writers.map (fun h => h.path))[k]? = some (os.resolve ('/' :: name)) := by
    rw [i.paths]
    show (Sources.paths os (told (prun os (start disk) ops).1))[k]? = _
    simp [Sources.paths, hk]
  rw [List.getElem?_map] at hp
  cases hw : (prun os (start disk) ops).2.writers[k]? with
  | none => simp [hw] at hp
  | some h =>
    simp only [hw, Option.map_some, Option.some.injEq] at hp
    obtain ⟨t1, t2, t3⟩ := t k h (name, text) hw hk
    unfold Disk.content
    rw [if_pos hf, ← hp, t1, t2]

/-- C139. As long as SetBasePath is not called, the files of all sources are there, and every other path names what it named before, with the same
contents. -/
theorem c139_kept (os : OS) (disk : Disk) (ops : List POp) (hb : NoBase ops) :
    (∀ p ∈ (told (prun os (start disk) ops).1).paths os, (prun os (start disk) ops).2.disk.fs p = some .file) ∧
    (∀ q, q ∉ (told (prun os (start disk) ops).1).paths os → (prun os (start disk) ops).2.disk.fs q = disk.fs q ∧
      (prun os (start disk) ops).2.disk.content q = disk.content q) := by
  obtain ⟨h1, h2⟩ := run_kept os ops (start disk) [] (start_inv os disk) rfl hb (by simp [Sources.paths])
  refine ⟨h1, fun q hq => ?_⟩
  obtain ⟨a1, a2, a3⟩ := h2 q hq
  refine ⟨a1, ?_⟩
  unfold Disk.content
  rw [a1, a2, a3]
  rfl

/-- C139. After any history: Src(name) returns exactly if no Src with this name has returned before, all directories leading to "/name" are usable and
"/name" is not a directory; CurrentSrc is the writer of the latest Src that returned, and before the first it is nil: a write through it panics. Writes do not
fail. -/
theorem c139_src_iff (os : OS) (disk : Disk) (ops : List POp) (name : List Char) (k : Nat) (vals : List (List Nat)) :
    ((pstep os (prun os (start disk) ops).2 (.call (.src name))).1 = .returned ↔
      name ∉ (told (prun os (start disk) ops).1).map Prod.fst ∧
      Reached os.root (prun os (start disk) ops).2.disk.fs (os.resolve ('/' :: name)) ∧
      ∀ u, (prun os (start disk) ops).2.disk.fs (os.resolve ('/' :: name)) ≠ some (.dir u)) ∧
    ((pstep os (prun os (start disk) ops).2 (.writeCurrent vals)).1 = .panicked ↔ told (prun os (start disk) ops).1 = []) ∧
    (told (prun os (start disk) ops).1 ≠ [] →
      currentSrc (prun os (start disk) ops).2 = some ((told (prun os (start disk) ops).1).length - 1)) ∧
    (pstep os (prun os (start disk) ops).2 (.write k vals)).2.1 = none ∧ (pstep os (prun os (start disk) ops).2 (.writeCurrent vals)).2.1 = none := by
  obtain ⟨i, _⟩ := run_inv os ops _ _ (start_inv os disk)
  have i : FInv os (prun os (start disk) ops).2 (told (prun os (start disk) ops).1) := i
  generalize (prun os (start disk) ops).2 = s at i ⊢
  generalize told (prun os (start disk) ops).1 = l at i ⊢
  refine ⟨?_, ?_, fun hl => ?_, ?_, ?_⟩
  · rw [← i.names name]
    have h := (src_cases os s.gen s.disk.fs name i.cd).1
    rw [Bool.eq_false_iff] at h
    rw [← h]
    by_cases hr : (src os s.gen s.disk.fs name).1 = .returned
    · obtain ⟨m, _, h2⟩ := call_src os s name i.cd hr
      rw [h2]
      simp [hr]
    · rw [call_other os s (.src name) (fun n e => by cases e; exact hr)]
      rfl
  · unfold pstep
    rw [show currentSrc s = s.current from rfl, i.cur]
    by_cases hl : l = [] <;> simp [hl]
  · rw [show currentSrc s = s.current from rfl, i.cur, if_neg hl]
  · show (writeTo k vals s).1 = none
    rw [writeTo_eq]
  · unfold pstep
    rw [show currentSrc s = s.current from rfl, i.cur]
    by_cases hl : l = []
    · simp [hl]
    · simp only [hl, if_false]
      rw [writeTo_eq]

/-- A disk with the file /b/f, 3 bytes, and a file /c with 2. -/
def demoDisk : Disk := ⟨fun p => if p = ["c"] then some .file else demoFS p, fun _ => 0, fun p _ => if p = ["c"] then [7, 7] else [1, 2, 3]⟩

/-- The root user and paths in the root directory: "/c", "/./c" and "/cc" (any other name is "/d"). -/
def demoOS2 : OS := ⟨true, fun t => if t = "/c".toList then ["c"] else if t = "/./c".toList then ["c"] else if t = "/cc".toList then ["cc"] else ["d"],
  fun _ _ => none, fun fs _ => fs⟩

/-- Two sources, written to in turn, one through a writer kept from before. -/
example : told (prun demoOS2 (start demoDisk) [.call (.src "d".toList), .writeCurrent [[65], [66, 67]], .call (.src "cc".toList), .writeCurrent [[70]],
      .write 0 [[68]], .call (.src "d".toList)]).1 = [("d".toList, [65, 66, 67, 68]), ("cc".toList, [70])] ∧
    (prun demoOS2 (start demoDisk) [.call (.src "d".toList), .writeCurrent [[65], [66, 67]], .call (.src "cc".toList), .writeCurrent [[70]],
      .write 0 [[68]], .call (.src "d".toList)]).2.disk.content ["d"] = some [65, 66, 67, 68] := by decide +kernel

/-- C139, refuted: two names of one path. The second Src("./c") is not recognised as the source "c": it returns and what was written to the first is
gone. Text written afterwards to the first writer comes after a gap of zeros. -/
theorem c139_same_path_refuted :
    told (prun demoOS2 (start demoDisk) [.call (.src "c".toList), .writeCurrent [[65, 66]], .call (.src "./c".toList), .write 0 [[67]]]).1 =
      [("c".toList, [65, 66, 67]), ("./c".toList, [])] ∧
    (prun demoOS2 (start demoDisk) [.call (.src "c".toList), .writeCurrent [[65, 66]], .call (.src "./c".toList)]).2.disk.content ["c"] = some [] ∧
    (prun demoOS2 (start demoDisk) [.call (.src "c".toList), .writeCurrent [[65, 66]], .call (.src "./c".toList), .write 0 [[67]]]).2.disk.content ["c"] =
      some [0, 0, 67] := by decide +kernel

/-- C139, refuted: "Src panics if the file already exists". A file that this generator has not made itself is emptied, and Src returns. This is so for every
file that can be reached, whatever the history, unless a Src with the same name has returned before. -/
theorem c139_existing_refuted (os : OS) (disk : Disk) (ops : List POp) (name : List Char)
    (hf : (prun os (start disk) ops).2.disk.fs (os.resolve ('/' :: name)) = some .file)
    (hr : Reached os.root (prun os (start disk) ops).2.disk.fs (os.resolve ('/' :: name)))
    (hnew : name ∉ (told (prun os (start disk) ops).1).map Prod.fst) :
    (pstep os (prun os (start disk) ops).2 (.call (.src name))).1 = .returned ∧
    (pstep os (prun os (start disk) ops).2 (.call (.src name))).2.2.disk.content (os.resolve ('/' :: name)) = some [] := by
  have hret := (c139_src_iff os disk ops name 0 []).1.2 ⟨hnew, hr, by simp [hf]⟩
  refine ⟨hret, ?_⟩
  obtain ⟨i, _⟩ := run_inv os ops _ _ (start_inv os disk)
  generalize (prun os (start disk) ops).2 = s at *
  have hsr : (src os s.gen s.disk.fs name).1 = .returned := by
    by_contra hc
    rw [call_other os s (.src name) (fun n e => by cases e; exact hc)] at hret
    exact hc hret
  obtain ⟨m, _, h2⟩ := call_src os s name i.cd hsr
  rw [h2]
  simp [Disk.content, Disk.opened]

/-- The file /c of 2 bytes. -/
example : demoDisk.content ["c"] = some [7, 7] ∧ (pstep demoOS2 (start demoDisk) (.call (.src "c".toList))).2.2.disk.content ["c"] = some [] ∧
    Reached true demoDisk.fs ["c"] := by
  refine ⟨by decide +kernel, by decide +kernel, ?_⟩
  rw [← walk_reached0]
  decide +kernel

/-! ### Removed files -/

/-- A failed RemoveAll makes no files. -/
def OS.OnlyRemoves (os : OS) : Prop := ∀ fs p q, os.part fs p q = some .file → fs q = some .file

theorem mkdir_nofile (root : Bool) (fs : FS) (p q : Path) (h : (mkdir root fs p).2 q = some .file) : fs q = some .file := by
  unfold mkdir at h
  cases hw : walk root fs [] p with
  | some e => simpa [hw] using h
  | none =>
    cases hp : fs p with
    | some n => simpa [hw, hp] using h
    | none =>
      simp only [hw, hp] at h
      by_cases e : q = p
      · subst e; simp at h
      · rwa [Function.update_of_ne e] at h

theorem mkdirAllR_nofile (root : Bool) (q : Path) : ∀ (l : List String) (fs : FS), (mkdirAllR root fs l).2 q = some .file → fs q = some .file := by
  intro l
  induction l with
  | nil =>
    intro fs h
    unfold mkdirAllR at h
    rcases hs : stat root fs [] with e | n
    · simpa [hs] using h
    · cases n <;> simpa [hs] using h
  | cons c up ih =>
    intro fs h
    unfold mkdirAllR at h
    rcases hs : stat root fs (c :: up).reverse with e | n
    · simp only [hs] at h
      rcases hm : mkdirAllR root fs up with ⟨_ | e, fs'⟩
      · rw [hm] at h
        have := mkdir_nofile _ _ _ _ h
        exact ih fs (by rw [hm]; exact this)
      · rw [hm] at h
        exact ih fs (by rw [hm]; exact h)
    · cases n <;> simp only [hs] at h <;> exact h

theorem removeAll_nofile (b : Option FErr) (part fs : FS) (p q : Path) (hp : part q = some .file → fs q = some .file)
    (h : (removeAll b part fs p).2 q = some .file) : fs q = some .file := by
  unfold removeAll at h
  cases b with
  | some e => exact hp h
  | none =>
    simp only at h
    by_cases hq : p <+: q
    · simp [hq] at h
    · simpa [hq] using h

/-- Calls of SetBasePath and Dir make no files. -/
theorem other_nofile (os : OS) (ho : os.OnlyRemoves) (g : Gen) (fs : FS) (op : GOp) (hop : ∀ name, op ≠ .src name) (q : Path)
    (h : (runG os (g, fs) op).2.2 q = some .file) : fs q = some .file := by
  cases op with
  | src name => exact absurd rfl (hop name)
  | dir name =>
    simp only [runG, dir] at h
    cases hb : getBasePath g with
    | none => simpa [hb] using h
    | some b =>
      simp only [hb] at h
      by_cases hd : (g.dirs.get (b ++ ['/'] ++ name)).isSome
      · simp only [hd, if_true] at h; exact h
      · simp only [hd, Bool.false_eq_true, if_false] at h
        have key := mkdirAllR_nofile os.root q (os.resolve (b ++ ['/'] ++ name)).reverse fs
        unfold mkdirAll at h
        rcases hm : mkdirAllR os.root fs (os.resolve (b ++ ['/'] ++ name)).reverse with ⟨_ | e, fs'⟩
        · rw [hm] at h key
          simp only at h
          cases hw : g.dirs.write (b ++ ['/'] ++ name) true <;> rw [hw] at h <;> exact key h
        · rw [hm] at h key
          exact key h
  | setBasePath bp =>
    simp only [runG, setBasePath] at h
    rcases hr : readDir os.root fs (os.resolve bp) with _ | e
    · simp only [hr] at h
      have k1 := removeAll_nofile (os.blocked fs (os.resolve bp)) (os.part fs (os.resolve bp)) fs (os.resolve bp) q (ho fs _ q)
      rcases hm : removeAll (os.blocked fs (os.resolve bp)) (os.part fs (os.resolve bp)) fs (os.resolve bp) with ⟨_ | e, fs'⟩
      · rw [hm] at h k1
        simp only at h
        have k2 := mkdir_nofile os.root fs' (os.resolve bp) q
        rcases hk : mkdir os.root fs' (os.resolve bp) with ⟨_ | e, fs''⟩ <;> rw [hk] at h k2 <;> exact k1 (k2 h)
      · rw [hm] at h k1
        exact k1 h
    · have key := mkdirAllR_nofile os.root q (os.resolve bp).reverse fs
      cases e with
      | notExist =>
        simp only [hr] at h
        unfold mkdirAll at h
        rcases hm : mkdirAllR os.root fs (os.resolve bp).reverse with ⟨_ | e, fs'⟩ <;> rw [hm] at h key <;> exact key h
      | _ => simpa [hr] using h

/-- The file that the k-th writer writes to is not the one its path names now, and never will be. -/
def Detached (s : Prog) (k : Nat) : Prop := ∃ h, s.writers[k]? = some h ∧
  (h.version < s.disk.version h.path ∨ h.version = s.disk.version h.path ∧ s.disk.fs h.path ≠ some .file)

theorem detached_writes (k j : Nat) (vals : List (List Nat)) (s : Prog) (h : Detached s k) : Detached (writeTo j vals s).2 k := by
  rw [writeTo_eq]
  obtain ⟨a1, a2, a3, _⟩ := writes_any j vals s.disk s.writers
  obtain ⟨w, h1, h2⟩ := h
  have := congrArg (fun l => l[k]?) a3
  simp only [List.getElem?_map, h1, Option.map_some] at this
  obtain ⟨w', e1, e2⟩ := Option.map_eq_some_iff.1 this
  simp only [Prod.mk.injEq] at e2
  refine ⟨w', e1, ?_⟩
  simp only [a1, a2, e2.1, e2.2]
  exact h2

theorem detached_step (os : OS) (ho : os.OnlyRemoves) (s : Prog) (hc : s.gen.currentDir = []) (k : Nat) (op : POp) (h : Detached s k) :
    Detached (pstep os s op).2.2 k := by
  cases op with
  | write j vals => exact detached_writes k j vals s h
  | writeCurrent vals =>
    unfold pstep
    cases currentSrc s with
    | none => exact h
    | some j => exact detached_writes k j vals s h
  | call op =>
    by_cases hr : ∀ name, op = .src name → (runG os (s.gen, s.disk.fs) op).1 ≠ .returned
    · rw [call_other os s op hr]
      obtain ⟨w, h1, h2⟩ := h
      refine ⟨w, h1, h2.imp id (fun ⟨v, hf⟩ => ⟨v, fun hfile => hf ?_⟩)⟩
      cases op with
      | src name =>
        have := ((src_cases os s.gen s.disk.fs name hc).2.2 (hr name rfl)).2
        have e : (runG os (s.gen, s.disk.fs) (.src name)).2.2 = s.disk.fs := by
          show (src os s.gen s.disk.fs name).2.2 = _
          rw [this]
        simp only [e] at hfile
        exact hfile
      | setBasePath bp => exact other_nofile os ho s.gen s.disk.fs _ (by simp) _ hfile
      | dir n => exact other_nofile os ho s.gen s.disk.fs _ (by simp) _ hfile
    · obtain ⟨name, rfl, hret⟩ : ∃ name, op = .src name ∧ (runG os (s.gen, s.disk.fs) op).1 = .returned := by
        by_contra hcon
        exact hr (fun name e hn => hcon ⟨name, e, hn⟩)
      obtain ⟨m, _, e2⟩ := call_src os s name hc hret
      rw [e2]
      obtain ⟨w, h1, h2⟩ := h
      have hl : k < s.writers.length := (List.getElem?_eq_some_iff.1 h1).1
      refine ⟨w, by simp only [List.getElem?_append_left hl, h1], ?_⟩
      by_cases hp : w.path = os.resolve ('/' :: name)
      · left
        simp only [Disk.opened, hp, Function.update_self]
        rw [hp] at h2
        by_cases hf : s.disk.fs (os.resolve ('/' :: name)) = some .file
        · simp only [hf, if_true]
          rcases h2 with h2 | ⟨_, h2⟩
          · exact h2
          · exact absurd hf h2
        · simp only [hf, if_false]
          rcases h2 with h2 | ⟨h2, _⟩ <;> omega
      · simp only [Disk.opened, Function.update_of_ne hp]
        exact h2

theorem detached_run (os : OS) (ho : os.OnlyRemoves) (k : Nat) : ∀ (ops : List POp) (s : Prog) (l : Sources), FInv os s l → Detached s k →
    Detached (prun os s ops).2 k := by
  intro ops
  induction ops with
  | nil => intro s l _ h; exact h
  | cons op ops ih => intro s l i h; exact ih _ _ (i.step op) (detached_step os ho s i.cd k op h)

theorem detached_content (k : Nat) (vals : List (List Nat)) (s : Prog) (h : Detached s k) (q : Path) :
    (writeTo k vals s).2.disk.content q = s.disk.content q := by
  rw [writeTo_eq]
  have key : ∀ (vals : List (List Nat)) (d : Disk) (ws : List Handle) (w : Handle), ws[k]? = some w →
      (w.version < d.version w.path ∨ w.version = d.version w.path ∧ d.fs w.path ≠ some .file) →
      (vals.foldl (fun (s : Disk × List Handle) v => (fileWriter k s v).2.2) (d, ws)).1.content q = d.content q := by
    intro vals
    induction vals with
    | nil => intro d ws w _ _; rfl
    | cons v vs ih =>
      intro d ws w hk hd
      have hl : k < ws.length := (List.getElem?_eq_some_iff.1 hk).1
      have e1 : (fileWriter k (d, ws) v).2.2 = ({ d with data := Function.update d.data w.path (Function.update (d.data w.path) w.version (putAt (d.data w.path w.version) w.off v)) },
          ws.set k { w with off := w.off + v.length }) := by unfold fileWriter; simp [hk]
      rw [List.foldl_cons, e1]
      refine (ih { d with data := Function.update d.data w.path (Function.update (d.data w.path) w.version (putAt (d.data w.path w.version) w.off v)) } (ws.set k { w with off := w.off + v.length }) { w with off := w.off + v.length } (List.getElem?_set_self hl) hd).trans ?_
      unfold Disk.content
      by_cases hq : q = w.path
      · subst hq
        by_cases hf : d.fs w.path = some .file
        · have : d.version w.path ≠ w.version := by
            rcases hd with hd | ⟨_, hd⟩
            · omega
            · exact absurd hf hd
          simp [hf, Function.update_of_ne this]
        · simp [hf]
      · simp [Function.update_of_ne hq]
  obtain ⟨w, h1, h2⟩ := h
  exact key vals s.disk s.writers w h1 h2

/-- Versions only grow, and writers have versions of the past or the present. -/
theorem versions (os : OS) : ∀ (ops : List POp) (s : Prog) (l : Sources), FInv os s l →
    (∀ w ∈ s.writers, w.version ≤ s.disk.version w.path) → ∀ w ∈ (prun os s ops).2.writers, w.version ≤ (prun os s ops).2.disk.version w.path := by
  intro ops
  induction ops with
  | nil => intro s l _ h; exact h
  | cons op ops ih =>
    intro s l i h
    suffices hs : ∀ w ∈ (pstep os s op).2.2.writers, w.version ≤ (pstep os s op).2.2.disk.version w.path from ih _ _ (i.step op) hs
    have wr : ∀ j vals, ∀ w ∈ (writeTo j vals s).2.writers, w.version ≤ (writeTo j vals s).2.disk.version w.path := by
      intro j vals w hw
      rw [writeTo_eq] at hw ⊢
      obtain ⟨a1, a2, a3, _⟩ := writes_any j vals s.disk s.writers
      have hm : (w.path, w.version) ∈ s.writers.map (fun h => (h.path, h.version)) := by
        rw [← a3]
        exact List.mem_map.2 ⟨w, hw, rfl⟩
      obtain ⟨w', h1, h2⟩ := List.mem_map.1 hm
      simp only [Prod.mk.injEq] at h2
      simp only [a2]
      rw [← h2.1, ← h2.2]
      exact h w' h1
    cases op with
    | write j vals => exact wr j vals
    | writeCurrent vals =>
      unfold pstep
      cases currentSrc s with
      | none => exact h
      | some j => exact wr j vals
    | call op =>
      by_cases hr : ∀ name, op = .src name → (runG os (s.gen, s.disk.fs) op).1 ≠ .returned
      · rw [call_other os s op hr]
        exact h
      · obtain ⟨name, rfl, hret⟩ : ∃ name, op = .src name ∧ (runG os (s.gen, s.disk.fs) op).1 = .returned := by
          by_contra hcon
          exact hr (fun name e hn => hcon ⟨name, e, hn⟩)
        obtain ⟨m, _, e2⟩ := call_src os s name i.cd hret
        rw [e2]
        intro w hw
        simp only [List.mem_append, List.mem_singleton] at hw
        rcases hw with hw | rfl
        · have := h w hw
          by_cases hp : w.path = os.resolve ('/' :: name)
          · simp only [Disk.opened, hp, Function.update_self]
            rw [hp] at this
            by_cases hf : s.disk.fs (os.resolve ('/' :: name)) = some .file
            · simpa [hf] using this
            · simp only [hf, if_false]; omega
          · simpa [Disk.opened, Function.update_of_ne hp] using this
        · simp [Disk.opened]

/-- C139. If at some point of a history the file of the k-th source is gone (SetBasePath removes everything below the base path), writes to its writer have
no effect on any file from then on, even if another Src makes a new file at that path. -/
theorem c139_removed (os : OS) (ho : os.OnlyRemoves) (disk : Disk) (ops later : List POp) (k : Nat) (name : List Char) (text : List Nat)
    (hk : (told (prun os (start disk) ops).1)[k]? = some (name, text))
    (hgone : (prun os (start disk) ops).2.disk.fs (os.resolve ('/' :: name)) ≠ some .file) (vals : List (List Nat)) (q : Path) :
    (pstep os (prun os (prun os (start disk) ops).2 later).2 (.write k vals)).2.2.disk.content q =
      (prun os (prun os (start disk) ops).2 later).2.disk.content q := by
  obtain ⟨i, _⟩ := run_inv os ops _ _ (start_inv os disk)
  have hv := versions os ops (start disk) [] (start_inv os disk) (by simp [start])
  refine detached_content k vals _ (detached_run os ho k later _ _ i ?_) q
  have hp := congrArg (fun l => l[k]?) i.paths
  have hk' : (List.foldl Sources.tell [] (prun os (start disk) ops).1)[k]? = some (name, text) := hk
  simp only [List.getElem?_map, Sources.paths, hk', Option.map_some] at hp
  obtain ⟨w, h1, h2⟩ := Option.map_eq_some_iff.1 hp
  refine ⟨w, h1, ?_⟩
  have := hv w (List.mem_of_getElem? h1)
  rcases Nat.lt_or_eq_of_le this with h | h
  · exact .inl h
  · exact .inr ⟨h, by rw [h2]; exact hgone⟩

/-- A user with the directory "/b" as base path; "/b/f" and "/b/./f" are the same file. -/
private def demoOS3 : OS := ⟨true, fun t => if t = "/b/f".toList then ["b", "f"] else if t = "/b/./f".toList then ["b", "f"] else ["b"], fun _ _ => none, fun fs _ => fs⟩

private def demoOps : List POp := [.call (.src "b/f".toList), .writeCurrent [[65, 66]], .call (.setBasePath "/b".toList)]
private def demoLater : List POp := [.call (.src "b/./f".toList), .writeCurrent [[70]]]

/-- The file is removed and made again: what is written to the first writer does not get into the new file. -/
example : (pstep demoOS3 (prun demoOS3 (prun demoOS3 (start demoDisk) demoOps).2 demoLater).2 (.write 0 [[67]])).2.2.disk.content ["b", "f"] = some [70] := by
  rw [c139_removed demoOS3 (fun _ _ _ h => h) demoDisk demoOps demoLater 0 "b/f".toList [65, 66] (by decide +kernel) (by decide +kernel) [[67]]]
  decide +kernel

end Micro.Code
