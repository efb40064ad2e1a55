import Verif.Rest.ConcModel
import Verif.Rest.Props
import Verif.Funcs.SliceLemmas
/-
C149. A ServeMux used by several goroutines: what requests get while others register.
-/
namespace Micro.Rest.Conc
open Micro Micro.Funcs

variable {P H : Type}

/-! ### Any number of goroutines that register -/

/-- A slice that begins with the registrations hs and then holds some of `made`. -/
structure Good (hs made : List (Reg P H)) (m : SMem (Reg P H)) (s : Slc) : Prop where
  arr : s.arr < m.next
  off : s.off = 0
  len : s.len ≤ s.cap
  cap : s.cap ≤ (m.arrs s.arr).length
  base : hs.length ≤ s.len
  mem : ∀ j, j < s.len → ∃ r, (hs.length ≤ j → r ∈ made) ∧ (m.arrs s.arr)[j]? = some r
  pre : ∀ j, j < hs.length → (m.arrs s.arr)[j]? = hs[j]?

theorem getElem?_writeAt {α : Type} (l : List α) (i : Nat) (x : α) (hi : i < l.length) (j : Nat) : (writeAt l i [x])[j]? = if j = i then some x else l[j]? := by
  unfold writeAt
  simp only [List.length_singleton, List.append_assoc]
  by_cases h1 : j < i
  · rw [if_neg (by omega), List.getElem?_append_left (by simp; omega), List.getElem?_take, if_pos h1]
  · rw [List.getElem?_append_right (by simp; omega)]
    simp only [List.length_take, Nat.min_eq_left (Nat.le_of_lt hi)]
    by_cases h2 : j = i
    · subst h2; simp
    · rw [if_neg h2, List.singleton_append, show j - i = (j - i - 1) + 1 by omega, List.getElem?_cons_succ, List.getElem?_drop]
      congr 1; omega

theorem length_writeAt' {α : Type} (l : List α) (i : Nat) (x : α) (hi : i < l.length) : (writeAt l i [x]).length = l.length := by
  simp [writeAt]; omega

theorem Good.write {hs made : List (Reg P H)} {m : SMem (Reg P H)} {s : Slc} (h : Good hs made m s) {t : Slc} (ht : Good hs made m t) (hc : t.len < t.cap)
    {r : Reg P H} (hr : r ∈ made) : Good hs made (m.write t.arr (t.off + t.len) [r]) s := by
  have hl : t.len < (m.arrs t.arr).length := by have := ht.cap; omega
  by_cases e : s.arr = t.arr
  · have key : ∀ j, ((m.write t.arr (t.off + t.len) [r]).arrs s.arr)[j]? = if j = t.len then some r else (m.arrs s.arr)[j]? := by
      intro j
      simp only [SMem.write, e, Function.update_self, ht.off, Nat.zero_add]
      exact getElem?_writeAt _ _ _ hl j
    refine ⟨h.arr, h.off, h.len, ?_, h.base, ?_, ?_⟩
    · simp only [SMem.write, e, Function.update_self, ht.off, Nat.zero_add]
      rw [length_writeAt' _ _ _ hl, ← e]; exact h.cap
    · intro j hj
      rw [key]
      by_cases hj' : j = t.len
      · rw [if_pos hj']; exact ⟨r, fun _ => hr, rfl⟩
      · rw [if_neg hj']; exact h.mem j hj
    · intro j hj
      rw [key, if_neg (by have := ht.base; omega)]
      exact h.pre j hj
  · have key : (m.write t.arr (t.off + t.len) [r]).arrs s.arr = m.arrs s.arr := by simp [SMem.write, Function.update_of_ne e]
    refine ⟨h.arr, h.off, h.len, ?_, h.base, ?_, ?_⟩
    · rw [key]; exact h.cap
    · rw [key]; exact h.mem
    · rw [key]; exact h.pre

theorem Good.alloc {hs made : List (Reg P H)} {m : SMem (Reg P H)} {s : Slc} (h : Good hs made m s) (l : List (Reg P H)) :
    Good hs made ⟨Function.update m.arrs m.next l, m.next + 1⟩ s := by
  have key : (Function.update m.arrs m.next l) s.arr = m.arrs s.arr := Function.update_of_ne (by have := h.arr; omega) _ _
  refine ⟨Nat.lt_succ_of_lt h.arr, h.off, h.len, ?_, h.base, ?_, ?_⟩
  · simp only [key]; exact h.cap
  · simp only [key]; exact h.mem
  · simp only [key]; exact h.pre

/-- From where hs ends, the elements are in `made`. -/
def Late (hs made L : List (Reg P H)) : Prop := ∀ j x, L[j]? = some x → hs.length ≤ j → x ∈ made

theorem Late.snoc {hs made L : List (Reg P H)} (h : Late hs made L) {r : Reg P H} (hr : hs.length ≤ L.length → r ∈ made) : Late hs made (L ++ [r]) := by
  intro j x hx hj
  by_cases e : j < L.length
  · rw [List.getElem?_append_left e] at hx; exact h j x hx hj
  · rw [List.getElem?_append_right (by omega)] at hx
    have e2 : j - L.length = 0 := by
      by_contra hne
      rw [List.getElem?_eq_none (by simp; omega)] at hx
      simp at hx
    rw [e2] at hx
    simp only [List.getElem?_cons_zero, Option.some.injEq] at hx
    subst hx
    exact hr (by omega)

theorem Late.drop {hs made L : List (Reg P H)} (h : Late hs made L) : ∀ x ∈ L.drop hs.length, x ∈ made := by
  intro x hx
  obtain ⟨j, hj, hj'⟩ := List.mem_iff_getElem.mp hx
  refine h (hs.length + j) x ?_ (by omega)
  rw [← List.getElem?_drop, List.getElem?_eq_getElem hj, hj']

/-- What a goroutine that registers has at hand. -/
def RegOk (hs made : List (Reg P H)) (m : SMem (Reg P H)) : RegSt P H → Prop
  | .idle => True
  | .blank r => r ∈ made ∧ hs = []
  | .load r => r ∈ made
  | .got r s => r ∈ made ∧ Good hs made m s
  | .copying r s acc => r ∈ made ∧ Good hs made m s ∧ acc.length ≤ s.len ∧ Late hs made acc ∧ ∀ j, j < acc.length → j < hs.length → acc[j]? = hs[j]?
  | .store r s => r ∈ made ∧ Good hs made m s

/-- A request has read a list L that begins as hs does; what it goes on to answer, is what follows from L and what it will read. -/
def SrvOk (find : P → List Char → Option (List (List Char))) (hs made : List (Reg P H)) (m : SMem (Reg P H)) (method url : List Char) : SrvSt H → Prop
  | .ready => True
  | .loop s i um => Good hs made m s ∧ i ≤ s.len ∧ ∃ L : List (Reg P H), L.length = i ∧ Late hs made L ∧ (∀ j, j < i → j < hs.length → L[j]? = hs[j]?) ∧
      ∀ rest, serveLoop find method url false (L ++ rest) = serveLoop find method url um rest
  | .done resp => ∃ late : List (Reg P H), (∀ x ∈ late, x ∈ made) ∧ resp = serve find (hs ++ late) method url
  | .panicked => False

structure Inv (find : P → List Char → Option (List (List Char))) (hs made : List (Reg P H)) (p : St P H) : Prop where
  hdr : Good hs made p.mem (hdrSlc p.hdr)
  nil : p.hdr = none → hs = []
  regs : ∀ g ∈ p.regs, RegOk hs made p.mem g.1 ∧ ∀ r ∈ g.2, r ∈ made
  srvs : ∀ v ∈ p.srvs, SrvOk find hs made p.mem v.1 v.2.1 v.2.2

/-- A step of the memory that keeps good slices good. -/
def Keeps (hs made : List (Reg P H)) (m m' : SMem (Reg P H)) : Prop := ∀ s, Good hs made m s → Good hs made m' s

theorem RegOk.keeps {hs made : List (Reg P H)} {m m' : SMem (Reg P H)} (k : Keeps hs made m m') {g : RegSt P H} (h : RegOk hs made m g) : RegOk hs made m' g := by
  cases g with
  | idle => trivial
  | blank r => exact h
  | load r => exact h
  | got r s => exact ⟨h.1, k _ h.2⟩
  | copying r s acc => exact ⟨h.1, k _ h.2.1, h.2.2⟩
  | store r s => exact ⟨h.1, k _ h.2⟩

theorem SrvOk.keeps {find : P → List Char → Option (List (List Char))} {hs made : List (Reg P H)} {m m' : SMem (Reg P H)} (k : Keeps hs made m m') {method url : List Char}
    {v : SrvSt H} (h : SrvOk find hs made m method url v) : SrvOk find hs made m' method url v := by
  cases v with
  | ready => trivial
  | loop s i um => exact ⟨k _ h.1, h.2⟩
  | done resp => exact h
  | panicked => exact h

theorem regStep_ok (grow : Nat → Nat) (zv : Reg P H) {hs made : List (Reg P H)} {m : SMem (Reg P H)} {hdr : Option Slc} (hh : Good hs made m (hdrSlc hdr))
    (hn : hdr = none → hs = []) {g : RegSt P H × List (Reg P H)} (hg : RegOk hs made m g.1) (ht : ∀ r ∈ g.2, r ∈ made) :
    Keeps hs made m (regStep grow zv m hdr g).1 ∧ Good hs made (regStep grow zv m hdr g).1 (hdrSlc (regStep grow zv m hdr g).2.1) ∧
    ((regStep grow zv m hdr g).2.1 = none → hs = []) ∧
    RegOk hs made (regStep grow zv m hdr g).1 (regStep grow zv m hdr g).2.2.1 ∧ ∀ r ∈ (regStep grow zv m hdr g).2.2.2, r ∈ made := by
  obtain ⟨st, todo⟩ := g
  simp only at hg ht
  cases st with
  | idle =>
    cases todo with
    | nil => exact ⟨fun _ h => h, hh, hn, trivial, ht⟩
    | cons r todo =>
      refine ⟨fun _ h => h, hh, hn, ?_, fun x hx => ht x (by simp only [regStep] at hx; simp [hx])⟩
      simp only [regStep]
      cases hdr with
      | none => exact ⟨ht r (by simp), hn rfl⟩
      | some s => exact ht r (by simp)
  | blank r =>
    have hb : hs = [] := hg.2
    subst hb
    have hk : Keeps ([] : List (Reg P H)) made m (SMem.make zv m 0 0).1 := fun _ h => h.alloc _
    refine ⟨hk, ?_, fun h => by simp [regStep] at h, hg.1, ht⟩
    refine ⟨by simp [regStep, SMem.make, hdrSlc], rfl, by simp [regStep, SMem.make, hdrSlc], by simp [regStep, SMem.make, hdrSlc], by simp, ?_, by simp⟩
    intro j hj
    simp [regStep, SMem.make, hdrSlc] at hj
  | load r => exact ⟨fun _ h => h, hh, hn, ⟨hg, hh⟩, ht⟩
  | got r s =>
    by_cases hc : s.len + 1 ≤ s.cap
    · simp only [regStep, if_pos hc]
      have hk : Keeps hs made m (m.write s.arr (s.off + s.len) [r]) := fun _ h => h.write hg.2 (by omega) hg.1
      have hs' := hk _ hg.2
      refine ⟨hk, hk _ hh, hn, ⟨hg.1, ?_⟩, ht⟩
      refine ⟨hs'.arr, hs'.off, hc, hs'.cap, Nat.le_succ_of_le hs'.base, ?_, hs'.pre⟩
      intro j hj
      simp only at hj ⊢
      by_cases e : j = s.len
      · subst e
        refine ⟨r, fun _ => hg.1, ?_⟩
        simp only [SMem.write, Function.update_self, hg.2.off, Nat.zero_add]
        rw [getElem?_writeAt _ _ _ (by have := hg.2.cap; omega), if_pos rfl]
      · exact hs'.mem j (by omega)
    · simp only [regStep, if_neg hc]
      exact ⟨fun _ h => h, hh, hn, ⟨hg.1, hg.2, by simp, by intro j x hx; simp at hx, by simp⟩, ht⟩
  | copying r s acc =>
    obtain ⟨h1, h2, h3, h4, h5⟩ := hg
    by_cases hc : acc.length < s.len
    · obtain ⟨x, hx, hx'⟩ := h2.mem _ hc
      have : (m.arrs s.arr)[s.off + acc.length]? = some x := by rw [h2.off, Nat.zero_add]; exact hx'
      simp only [regStep, if_pos hc, this]
      refine ⟨fun _ h => h, hh, hn, ⟨h1, h2, by simp; omega, h4.snoc hx, ?_⟩, ht⟩
      · intro j hj hj'
        by_cases e : j = acc.length
        · subst e; rw [List.getElem?_concat_length, ← hx', h2.pre _ hj']
        · have : j < acc.length := by simp at hj; omega
          rw [List.getElem?_append_left this]; exact h5 j this hj'
    · simp only [regStep, if_neg hc]
      have hk : Keeps hs made m ⟨Function.update m.arrs m.next (acc ++ [r] ++ List.replicate (grow (acc ++ [r]).length) zv), m.next + 1⟩ := fun _ h => h.alloc _
      refine ⟨hk, hk _ hh, hn, ⟨h1, ?_⟩, ht⟩
      have hb := h2.base
      refine ⟨by simp, rfl, by simp, by simp; omega, by simp; omega, ?_, ?_⟩
      · intro j hj
        simp only [Function.update_self] at hj ⊢
        rw [List.getElem?_append_left hj, List.getElem?_eq_getElem hj]
        exact ⟨_, (h4.snoc (fun _ => h1)) j _ (List.getElem?_eq_getElem hj), rfl⟩
      · intro j hj
        simp only [Function.update_self]
        have hja : j < acc.length := by omega
        rw [List.getElem?_append_left (by simp; omega), List.getElem?_append_left hja]
        exact h5 j hja hj
  | store r s => exact ⟨fun _ h => h, hg.2, fun h => by simp [regStep] at h, trivial, ht⟩

theorem srvStep_ok {find : P → List Char → Option (List (List Char))} {hs made : List (Reg P H)} {m : SMem (Reg P H)} {hdr : Option Slc}
    (hh : Good hs made m (hdrSlc hdr)) {method url : List Char} {v : SrvSt H} (hv : SrvOk find hs made m method url v) :
    SrvOk find hs made m method url (srvStep find m hdr method url v) := by
  cases v with
  | ready => exact ⟨hh, Nat.zero_le _, [], rfl, by intro j x hx; simp at hx, by simp, fun _ => rfl⟩
  | loop s i um =>
    obtain ⟨h1, h2, L, hL, hLm, hLp, hsv⟩ := hv
    subst hL
    by_cases hi : L.length < s.len
    · obtain ⟨r, hr, hr'⟩ := h1.mem _ hi
      have hget : (m.arrs s.arr)[s.off + L.length]? = some r := by rw [h1.off, Nat.zero_add]; exact hr'
      have hmade : Late hs made (L ++ [r]) := hLm.snoc hr
      have hpre : ∀ j, j < L.length + 1 → j < hs.length → (L ++ [r])[j]? = hs[j]? := by
        intro j hj hj'
        by_cases e : j = L.length
        · subst e; rw [List.getElem?_concat_length, ← hr', h1.pre _ hj']
        · have : j < L.length := by omega
          rw [List.getElem?_append_left this]; exact hLp j this hj'
      have hnext : ∀ um', (∀ rest, serveLoop find method url um (r :: rest) = serveLoop find method url um' rest) →
          SrvOk find hs made m method url (.loop s (L.length + 1) um') := by
        intro um' hu
        refine ⟨h1, hi, L ++ [r], by simp, hmade, hpre, fun rest => ?_⟩
        rw [List.append_assoc, List.singleton_append, hsv, hu]
      simp only [srvStep, if_pos hi, hget]
      cases hf : find r.pattern url with
      | none => exact hnext _ (fun rest => by simp [serveLoop, hf])
      | some parts =>
        by_cases hm : method = r.method
        · simp only [if_pos hm]
          -- the list read so far, filled up with what is left of hs
          have hresp : ∀ rest, serveLoop find method url false (L ++ [r] ++ rest) = .called r.handler parts := by
            intro rest
            rw [List.append_assoc, List.singleton_append, hsv, serveLoop, hf]
            simp [hm]
          by_cases hb : L.length + 1 ≤ hs.length
          · refine ⟨[], by simp, ?_⟩
            have : L ++ [r] ++ hs.drop (L.length + 1) = hs := by
              have e : L ++ [r] = hs.take (L.length + 1) := by
                apply List.ext_getElem?
                intro j
                by_cases hj : j < L.length + 1
                · rw [hpre j hj (by omega), List.getElem?_take, if_pos hj]
                · rw [List.getElem?_eq_none (by simp; omega), List.getElem?_take, if_neg hj]
              rw [e, List.take_append_drop]
            rw [serve, List.append_nil, ← this, hresp]
          · refine ⟨(L ++ [r]).drop hs.length, hmade.drop, ?_⟩
            have : hs ++ (L ++ [r]).drop hs.length = L ++ [r] := by
              have e : (L ++ [r]).take hs.length = hs := by
                apply List.ext_getElem?
                intro j
                rw [List.getElem?_take]
                by_cases hj : j < hs.length
                · rw [if_pos hj, hpre j (by omega) hj]
                · rw [if_neg hj, List.getElem?_eq_none (by omega)]
              conv => lhs; lhs; rw [← e]
              rw [List.take_append_drop]
            rw [serve, this]
            have := hresp []
            rw [List.append_nil] at this
            exact this.symm
        · simp only [if_neg hm]
          exact hnext _ (fun rest => by rw [serveLoop, hf]; simp [hm])
    · have hle : hs.length ≤ L.length := by have := h1.base; omega
      have hLs : hs ++ L.drop hs.length = L := by
        have e : L.take hs.length = hs := by
          apply List.ext_getElem?
          intro j
          rw [List.getElem?_take]
          by_cases hj : j < hs.length
          · rw [if_pos hj, hLp j (by omega) hj]
          · rw [if_neg hj, List.getElem?_eq_none (by omega)]
        conv => lhs; lhs; rw [← e]
        rw [List.take_append_drop]
      have hresp : serve find (hs ++ L.drop hs.length) method url = serveLoop find method url um [] := by
        rw [serve, hLs]
        have := hsv []
        rwa [List.append_nil] at this
      have : srvStep find m hdr method url (.loop s L.length um) = .done (serveLoop find method url um ([] : List (Reg P H))) := by
        simp only [srvStep, if_neg hi, serveLoop]
        cases um <;> simp
      rw [this]
      exact ⟨L.drop hs.length, hLm.drop, hresp.symm⟩
  | done resp => exact hv
  | panicked => exact hv

theorem inv_step (grow : Nat → Nat) (zv : Reg P H) {find : P → List Char → Option (List (List Char))} {hs made : List (Reg P H)} {p : St P H}
    (h : Inv find hs made p) (c : Choice) : Inv find hs made (p.step grow zv find c) := by
  cases c with
  | reg k =>
    cases hg : p.regs[k]? with
    | none => simpa only [St.step, hg] using h
    | some g =>
      obtain ⟨h1, h2⟩ := h.regs g (List.mem_of_getElem? hg)
      obtain ⟨k1, k2, k3, k4, k5⟩ := regStep_ok grow zv h.hdr h.nil h1 h2
      simp only [St.step, hg]
      refine ⟨k2, k3, ?_, ?_⟩
      · intro g' hg'
        rcases List.mem_or_eq_of_mem_set hg' with hg' | rfl
        · exact ⟨(h.regs g' hg').1.keeps k1, (h.regs g' hg').2⟩
        · exact ⟨k4, k5⟩
      · exact fun v hv => (h.srvs v hv).keeps k1
  | srv k =>
    cases hv : p.srvs[k]? with
    | none => simpa only [St.step, hv] using h
    | some v =>
      obtain ⟨method, url, sv⟩ := v
      simp only [St.step, hv]
      refine ⟨h.hdr, h.nil, h.regs, ?_⟩
      intro v' hv'
      rcases List.mem_or_eq_of_mem_set hv' with hv' | rfl
      · exact h.srvs v' hv'
      · exact srvStep_ok h.hdr (h.srvs _ (List.mem_of_getElem? hv))

theorem inv_run (grow : Nat → Nat) (zv : Reg P H) (find : P → List Char → Option (List (List Char))) (hs : List (Reg P H)) (spare : Nat) (rss : List (List (Reg P H)))
    (reqs : List (List Char × List Char)) (sched : List Choice) :
    Inv find hs rss.flatten ((St.init zv hs spare rss reqs).run grow zv find sched) := by
  have gen : ∀ (sched : List Choice) (p : St P H), Inv find hs rss.flatten p → Inv find hs rss.flatten (p.run grow zv find sched) := by
    intro sched
    induction sched with
    | nil => exact fun _ h => h
    | cons c sched ih => exact fun p h => ih _ (inv_step grow zv h c)
  refine gen sched _ ⟨?_, ?_, ?_, ?_⟩
  · by_cases e : hs = []
    · subst e
      refine ⟨by simp [St.init, hdrSlc], by simp [St.init, hdrSlc], by simp [St.init, hdrSlc], by simp [St.init, hdrSlc], by simp, ?_, by simp⟩
      intro j hj
      simp [St.init, hdrSlc] at hj
    · refine ⟨by simp [St.init, hdrSlc, e], by simp [St.init, hdrSlc, e], by simp [St.init, hdrSlc, e], by simp [St.init, hdrSlc, e],
        by simp [St.init, hdrSlc, e], ?_, ?_⟩
      · intro j hj
        simp only [St.init, if_neg e, hdrSlc] at hj ⊢
        refine ⟨hs[j], by omega, ?_⟩
        simp [List.getElem?_append_left hj]
      · intro j hj
        simp only [St.init, if_neg e, hdrSlc] at hj ⊢
        simp [List.getElem?_append_left hj]
  · intro h
    by_contra e
    simp [St.init, e] at h
  · intro g hg
    simp only [St.init, List.mem_map] at hg
    obtain ⟨rs, hrs, rfl⟩ := hg
    refine ⟨trivial, fun r hr => ?_⟩
    exact List.mem_flatten.mpr ⟨rs, hrs, hr⟩
  · intro v hv
    simp only [St.init, List.mem_map] at hv
    obtain ⟨q, _, rfl⟩ := hv
    trivial

/-- C149. However many goroutines register, and however their steps interleave with those of the requests: no request panics, and every request is answered as by a mux with the registrations that were
there before, in their order, followed by some of those that goroutines make. -/
theorem c149_answer (grow : Nat → Nat) (zv : Reg P H) (find : P → List Char → Option (List (List Char))) (hs : List (Reg P H)) (spare : Nat) (rss : List (List (Reg P H)))
    (reqs : List (List Char × List Char)) (sched : List Choice) (method url : List Char) (v : SrvSt H)
    (hv : (method, url, v) ∈ ((St.init zv hs spare rss reqs).run grow zv find sched).srvs) :
    v ≠ .panicked ∧ ∀ resp, v = .done resp → ∃ late, (∀ r ∈ late, ∃ rs ∈ rss, r ∈ rs) ∧ resp = serve find (hs ++ late) method url := by
  have h := (inv_run grow zv find hs spare rss reqs sched).srvs _ hv
  constructor
  · rintro rfl; exact h
  · rintro resp rfl
    obtain ⟨late, h1, h2⟩ := h
    refine ⟨late, fun r hr => ?_, h2⟩
    simpa [List.mem_flatten] using h1 r hr

theorem serve_append (find : P → List Char → Option (List (List Char))) (hs late : List (Reg P H)) (method url : List Char) (h : H) (parts : List (List Char))
    (hc : serve find hs method url = .called h parts) : serve find (hs ++ late) method url = .called h parts := by
  have gen : ∀ (hs : List (Reg P H)) (um : Bool), serveLoop find method url um hs = .called h parts → serveLoop find method url um (hs ++ late) = .called h parts := by
    intro hs
    induction hs with
    | nil => intro um hh; cases um <;> simp [serveLoop] at hh
    | cons r hs ih =>
      intro um hh
      simp only [List.cons_append, serveLoop] at hh ⊢
      cases hf : find r.pattern url with
      | none => simp only [hf] at hh ⊢; exact ih _ hh
      | some ps =>
        simp only [hf] at hh ⊢
        by_cases e : method = r.method
        · simpa only [if_pos e] using hh
        · simp only [if_neg e] at hh ⊢; exact ih _ hh
  exact gen hs false hc

/-- C149. A request for which the registrations that were there before have a handler, gets that handler, whatever is registered meanwhile. -/
theorem c149_earlier (grow : Nat → Nat) (zv : Reg P H) (find : P → List Char → Option (List (List Char))) (hs : List (Reg P H)) (spare : Nat) (rss : List (List (Reg P H)))
    (reqs : List (List Char × List Char)) (sched : List Choice) (method url : List Char) (resp : Response H)
    (hv : (method, url, .done resp) ∈ ((St.init zv hs spare rss reqs).run grow zv find sched).srvs)
    (h : H) (parts : List (List Char)) (hc : serve find hs method url = .called h parts) : resp = .called h parts := by
  obtain ⟨late, _, rfl⟩ := (c149_answer grow zv find hs spare rss reqs sched method url _ hv).2 resp rfl
  exact serve_append find hs late method url h parts hc

/-- C149. The registrations that were there before stay in the mux, in front; behind them are only registrations that goroutines make. -/
theorem c149_kept (grow : Nat → Nat) (zv : Reg P H) (find : P → List Char → Option (List (List Char))) (hs : List (Reg P H)) (spare : Nat) (rss : List (List (Reg P H)))
    (reqs : List (List Char × List Char)) (sched : List Choice) :
    ∃ late, (∀ r ∈ late, ∃ rs ∈ rss, r ∈ rs) ∧
      ((St.init zv hs spare rss reqs).run grow zv find sched).mem.elems (hdrSlc ((St.init zv hs spare rss reqs).run grow zv find sched).hdr) = hs ++ late := by
  have h := (inv_run grow zv find hs spare rss reqs sched).hdr
  generalize (St.init zv hs spare rss reqs).run grow zv find sched = p at h
  refine ⟨(p.mem.elems (hdrSlc p.hdr)).drop hs.length, ?_, ?_⟩
  · have hl : Late hs rss.flatten (p.mem.elems (hdrSlc p.hdr)) := by
      intro j x hx hj
      rw [getElem?_elems, h.off, Nat.zero_add] at hx
      by_cases hl : j < (hdrSlc p.hdr).len
      · rw [if_pos hl] at hx
        obtain ⟨y, hy, hy'⟩ := h.mem j hl
        rw [hx] at hy'
        cases hy'
        exact hy hj
      · simp [hl] at hx
    intro r hr
    simpa [List.mem_flatten] using hl.drop r hr
  · have e : (p.mem.elems (hdrSlc p.hdr)).take hs.length = hs := by
      apply List.ext_getElem?
      intro j
      rw [List.getElem?_take]
      by_cases hj : j < hs.length
      · rw [if_pos hj, getElem?_elems, if_pos (by have := h.base; omega), h.off, Nat.zero_add, h.pre j hj]
      · rw [if_neg hj, List.getElem?_eq_none (by omega)]
    conv => rhs; lhs; rw [← e]
    rw [List.take_append_drop]

/-! ### Nobody waits for anybody -/

section
variable {grow : Nat → Nat} {zv : Reg P H} {find : P → List Char → Option (List (List Char))} {hs made : List (Reg P H)}

theorem srv_get {p : St P H} {k : Nat} {method url : List Char} {v : SrvSt H} (h : p.srvs[k]? = some (method, url, v)) :
    (p.step grow zv find (.srv k)).srvs[k]? = some (method, url, srvStep find p.mem p.hdr method url v) := by
  simp only [St.step, h]
  exact List.getElem?_set_self (List.getElem?_eq_some_iff.mp h).1

theorem reg_get {p : St P H} {k : Nat} {g : RegSt P H × List (Reg P H)} (h : p.regs[k]? = some g) :
    (p.step grow zv find (.reg k)).regs[k]? = some (regStep grow zv p.mem p.hdr g).2.2 := by
  simp only [St.step, h]
  exact List.getElem?_set_self (List.getElem?_eq_some_iff.mp h).1

/-- The request k is answered after some steps of its own. -/
def Answered (grow : Nat → Nat) (zv : Reg P H) (find : P → List Char → Option (List (List Char))) (p : St P H) (k : Nat) (method url : List Char) : Prop :=
  ∃ n resp, (p.run grow zv find (List.replicate n (.srv k))).srvs[k]? = some (method, url, .done resp)

theorem answered_step {p : St P H} {k : Nat} {method url : List Char} (h : Answered grow zv find (p.step grow zv find (.srv k)) k method url) :
    Answered grow zv find p k method url := by
  obtain ⟨n, resp, h⟩ := h
  exact ⟨n + 1, resp, h⟩

theorem answered_loop {k : Nat} {method url : List Char} (d : Nat) : ∀ (p : St P H) (s : Slc) (i : Nat) (um : Bool), Inv find hs made p → s.len - i = d →
    p.srvs[k]? = some (method, url, .loop s i um) → Answered grow zv find p k method url := by
  induction d with
  | zero =>
    intro p s i um _ hd h
    have h' := srv_get (grow := grow) (zv := zv) (find := find) h
    simp only [srvStep, if_neg (show ¬ i < s.len by omega)] at h'
    cases um
    · exact ⟨1, _, h'⟩
    · exact ⟨1, _, h'⟩
  | succ d ih =>
    intro p s i um hI hd h
    have hi : i < s.len := by omega
    have hv := hI.srvs _ (List.mem_of_getElem? h)
    obtain ⟨r, _, hr⟩ := hv.1.mem i hi
    have hget : (p.mem.arrs s.arr)[s.off + i]? = some r := by rw [hv.1.off, Nat.zero_add]; exact hr
    have h' := srv_get (grow := grow) (zv := zv) (find := find) h
    have hI' := inv_step grow zv hI (.srv k)
    simp only [srvStep, if_pos hi, hget] at h'
    refine answered_step ?_
    cases hf : find r.pattern url with
    | none => simp only [hf] at h'; exact ih _ s (i + 1) um hI' (by omega) h'
    | some parts =>
      simp only [hf] at h'
      by_cases hm : method = r.method
      · simp only [if_pos hm] at h'; exact ⟨0, _, h'⟩
      · simp only [if_neg hm] at h'; exact ih _ s (i + 1) true hI' (by omega) h'

/-- The goroutine k has made all its registrations after some steps of its own. -/
def Finishes (grow : Nat → Nat) (zv : Reg P H) (find : P → List Char → Option (List (List Char))) (p : St P H) (k : Nat) : Prop :=
  ∃ n, (p.run grow zv find (List.replicate n (.reg k))).regs[k]? = some (.idle, [])

theorem finishes_step {p : St P H} {k : Nat} (h : Finishes grow zv find (p.step grow zv find (.reg k)) k) : Finishes grow zv find p k := by
  obtain ⟨n, h⟩ := h
  exact ⟨n + 1, h⟩

theorem finishes_copying {k : Nat} {todo : List (Reg P H)} (hi : ∀ p : St P H, Inv find hs made p → p.regs[k]? = some (.idle, todo) → Finishes grow zv find p k)
    {r : Reg P H} {s : Slc} (d : Nat) : ∀ (p : St P H) (acc : List (Reg P H)), Inv find hs made p → s.len - acc.length = d →
    p.regs[k]? = some (.copying r s acc, todo) → Finishes grow zv find p k := by
  induction d with
  | zero =>
    intro p acc hI hd h
    have h' := reg_get (grow := grow) (zv := zv) (find := find) h
    simp only [regStep, if_neg (show ¬ acc.length < s.len by omega)] at h'
    have hI' := inv_step grow zv hI (.reg k)
    exact finishes_step (finishes_step (hi _ (inv_step grow zv hI' _) (reg_get h')))
  | succ d ih =>
    intro p acc hI hd h
    have hl : acc.length < s.len := by omega
    have hg := (hI.regs _ (List.mem_of_getElem? h)).1
    obtain ⟨x, _, hx⟩ := hg.2.1.mem _ hl
    have hget : (p.mem.arrs s.arr)[s.off + acc.length]? = some x := by rw [hg.2.1.off, Nat.zero_add]; exact hx
    have h' := reg_get (grow := grow) (zv := zv) (find := find) h
    simp only [regStep, if_pos hl, hget] at h'
    exact finishes_step (ih _ _ (inv_step grow zv hI _) (by simp; omega) h')

theorem finishes_got {k : Nat} {todo : List (Reg P H)} (hi : ∀ p : St P H, Inv find hs made p → p.regs[k]? = some (.idle, todo) → Finishes grow zv find p k)
    {r : Reg P H} {s : Slc} (p : St P H) (hI : Inv find hs made p) (h : p.regs[k]? = some (.got r s, todo)) : Finishes grow zv find p k := by
  have h' := reg_get (grow := grow) (zv := zv) (find := find) h
  have hI' := inv_step grow zv hI (.reg k)
  refine finishes_step ?_
  by_cases hc : s.len + 1 ≤ s.cap
  · simp only [regStep, if_pos hc] at h'
    exact finishes_step (hi _ (inv_step grow zv hI' _) (reg_get h'))
  · simp only [regStep, if_neg hc] at h'
    exact finishes_copying hi _ _ [] hI' rfl h'

theorem finishes_load {k : Nat} {todo : List (Reg P H)} (hi : ∀ p : St P H, Inv find hs made p → p.regs[k]? = some (.idle, todo) → Finishes grow zv find p k)
    {r : Reg P H} (p : St P H) (hI : Inv find hs made p) (h : p.regs[k]? = some (.load r, todo)) : Finishes grow zv find p k :=
  finishes_step (finishes_got hi _ (inv_step grow zv hI _) (reg_get h))

theorem finishes_blank {k : Nat} {todo : List (Reg P H)} (hi : ∀ p : St P H, Inv find hs made p → p.regs[k]? = some (.idle, todo) → Finishes grow zv find p k)
    {r : Reg P H} (p : St P H) (hI : Inv find hs made p) (h : p.regs[k]? = some (.blank r, todo)) : Finishes grow zv find p k :=
  finishes_step (finishes_load hi _ (inv_step grow zv hI _) (reg_get h))

theorem finishes_idle {k : Nat} (todo : List (Reg P H)) : ∀ p : St P H, Inv find hs made p → p.regs[k]? = some (.idle, todo) → Finishes grow zv find p k := by
  induction todo with
  | nil => exact fun p _ h => ⟨0, h⟩
  | cons r todo ih =>
    intro p hI h
    have h' := reg_get (grow := grow) (zv := zv) (find := find) h
    have hI' := inv_step grow zv hI (.reg k)
    refine finishes_step ?_
    cases hh : p.hdr with
    | none => simp only [regStep, hh, Option.isNone_none, if_true] at h'; exact finishes_blank ih _ hI' h'
    | some s => simp only [regStep, hh, Option.isNone_some, Bool.false_eq_true, if_false] at h'; exact finishes_load ih _ hI' h'

theorem length_step (p : St P H) (c : Choice) : (p.step grow zv find c).regs.length = p.regs.length ∧
    (p.step grow zv find c).srvs.map (fun v => (v.1, v.2.1)) = p.srvs.map fun v => (v.1, v.2.1) := by
  cases c with
  | reg k => simp only [St.step]; split <;> simp
  | srv k =>
    cases h : p.srvs[k]? with
    | none => simp only [St.step, h]; exact ⟨trivial, trivial⟩
    | some v =>
      obtain ⟨method, url, sv⟩ := v
      simp only [St.step, h, List.map_set]
      refine ⟨trivial, ?_⟩
      apply List.ext_getElem?
      intro j
      by_cases e : k = j
      · subst e
        rw [List.getElem?_set_self (by simpa using (List.getElem?_eq_some_iff.mp h).1), List.getElem?_map, h]; rfl
      · rw [List.getElem?_set_ne e]

theorem length_run (sched : List Choice) : ∀ p : St P H, (p.run grow zv find sched).regs.length = p.regs.length ∧
    (p.run grow zv find sched).srvs.map (fun v => (v.1, v.2.1)) = p.srvs.map fun v => (v.1, v.2.1) := by
  induction sched with
  | nil => exact fun p => ⟨rfl, rfl⟩
  | cons c sched ih => exact fun p => ⟨(ih _).1.trans (length_step p c).1, (ih _).2.trans (length_step p c).2⟩

end

/-- C149. Whatever has happened, a request needs only its own steps until it is answered: it never waits for a registration. -/
theorem c149_answered (grow : Nat → Nat) (zv : Reg P H) (find : P → List Char → Option (List (List Char))) (hs : List (Reg P H)) (spare : Nat) (rss : List (List (Reg P H)))
    (reqs : List (List Char × List Char)) (sched : List Choice) (k : Nat) (method url : List Char) (hk : reqs[k]? = some (method, url)) :
    ∃ n resp, ((St.init zv hs spare rss reqs).run grow zv find (sched ++ List.replicate n (.srv k))).srvs[k]? = some (method, url, .done resp) := by
  have hrun : ∀ n, (St.init zv hs spare rss reqs).run grow zv find (sched ++ List.replicate n (.srv k)) =
      ((St.init zv hs spare rss reqs).run grow zv find sched).run grow zv find (List.replicate n (.srv k)) := fun n => by simp [St.run, List.foldl_append]
  simp only [hrun]
  have hI := inv_run grow zv find hs spare rss reqs sched
  have hl := congrArg (fun l => l[k]?) (length_run (grow := grow) (zv := zv) (find := find) sched (St.init zv hs spare rss reqs)).2
  simp only [List.getElem?_map, St.init, hk, Option.map_some] at hl
  obtain ⟨⟨m', u', v⟩, hv, e⟩ := Option.map_eq_some_iff.mp hl
  simp only [Prod.mk.injEq] at e
  obtain ⟨rfl, rfl⟩ := e
  change Answered grow zv find _ k m' u'
  cases v with
  | ready => exact answered_step (answered_loop _ _ _ _ _ (inv_step grow zv hI _) rfl (srv_get hv))
  | loop s i um => exact answered_loop _ _ _ _ _ hI rfl hv
  | done resp => exact ⟨0, resp, hv⟩
  | panicked => exact (hI.srvs _ (List.mem_of_getElem? hv)).elim

/-- C149. Whatever has happened, a goroutine that registers needs only its own steps until it has made all its registrations. -/
theorem c149_registers (grow : Nat → Nat) (zv : Reg P H) (find : P → List Char → Option (List (List Char))) (hs : List (Reg P H)) (spare : Nat) (rss : List (List (Reg P H)))
    (reqs : List (List Char × List Char)) (sched : List Choice) (k : Nat) (hk : k < rss.length) :
    ∃ n, ((St.init zv hs spare rss reqs).run grow zv find (sched ++ List.replicate n (.reg k))).regs[k]? = some (.idle, []) := by
  have hrun : ∀ n, (St.init zv hs spare rss reqs).run grow zv find (sched ++ List.replicate n (.reg k)) =
      ((St.init zv hs spare rss reqs).run grow zv find sched).run grow zv find (List.replicate n (.reg k)) := fun n => by simp [St.run, List.foldl_append]
  simp only [hrun]
  have hI := inv_run grow zv find hs spare rss reqs sched
  have hl : k < ((St.init zv hs spare rss reqs).run grow zv find sched).regs.length := by rw [(length_run _ _).1]; simpa [St.init] using hk
  have hg := List.getElem?_eq_getElem hl
  generalize ((St.init zv hs spare rss reqs).run grow zv find sched).regs[k] = g at hg
  change Finishes grow zv find _ k
  obtain ⟨st, todo⟩ := g
  have hi := finishes_idle (grow := grow) (zv := zv) (find := find) (hs := hs) (made := rss.flatten) (k := k) todo
  cases st with
  | idle => exact hi _ hI hg
  | blank r => exact finishes_blank hi _ hI hg
  | load r => exact finishes_load hi _ hI hg
  | got r s => exact finishes_got hi _ hI hg
  | copying r s acc => exact finishes_copying hi _ _ _ hI rfl hg
  | store r s => exact finishes_step (hi _ (inv_step grow zv hI _) (reg_get hg))

/-! ### One registration at a time -/

/-- The registration that a step completes: Handle returns nil after it has stored the new slice. -/
def returns (p : St P H) : Choice → List (Reg P H)
  | .reg k => match p.regs[k]? with
    | some (.store r _, _) => [r]
    | _ => []
  | .srv _ => []

/-- The registrations completed, in order. -/
def returned (grow : Nat → Nat) (zv : Reg P H) (find : P → List Char → Option (List (List Char))) : St P H → List Choice → List (Reg P H)
  | _, [] => []
  | p, c :: cs => returns p c ++ returned grow zv find (p.step grow zv find c) cs

/-- No goroutine makes a step of a call of Handle while another is in such a call: there is only one, or they use a lock. -/
def OneAtATime (grow : Nat → Nat) (zv : Reg P H) (find : P → List Char → Option (List (List Char))) : St P H → List Choice → Prop
  | _, [] => True
  | p, c :: cs => (∀ k, c = .reg k → k < p.regs.length → ∀ j g, p.regs[j]? = some g → j ≠ k → g.1 = .idle) ∧ OneAtATime grow zv find (p.step grow zv find c) cs

structure SOk (m : SMem (Reg P H)) (s : Slc) : Prop where
  arr : s.arr < m.next
  off : s.off = 0
  len : s.len ≤ s.cap
  cap : s.cap ≤ (m.arrs s.arr).length

theorem getElem?_elems0 {m : SMem (Reg P H)} {s : Slc} (h : SOk m s) (j : Nat) : (m.elems s)[j]? = if j < s.len then (m.arrs s.arr)[j]? else none := by
  rw [getElem?_elems, h.off, Nat.zero_add]

theorem length_elems0 {m : SMem (Reg P H)} {s : Slc} (h : SOk m s) : (m.elems s).length = s.len := by
  have := h.len; have := h.cap; have := h.off
  simp [SMem.elems]; omega

theorem SOk.write {m : SMem (Reg P H)} {s t : Slc} (h : SOk m s) (ht : SOk m t) (hc : t.len < t.cap) (r : Reg P H) :
    SOk (m.write t.arr (t.off + t.len) [r]) s := by
  have hl : t.len < (m.arrs t.arr).length := by have := ht.cap; omega
  refine ⟨h.arr, h.off, h.len, ?_⟩
  by_cases e : s.arr = t.arr
  · simp only [SMem.write, e, Function.update_self, ht.off, Nat.zero_add]
    rw [length_writeAt' _ _ _ hl, ← e]; exact h.cap
  · simp only [SMem.write, Function.update_of_ne e]; exact h.cap

theorem elems_write {m : SMem (Reg P H)} {s t : Slc} (h : SOk m s) (ht : SOk m t) (hc : t.len < t.cap) (r : Reg P H) (hst : s.arr = t.arr → s.len ≤ t.len) :
    (m.write t.arr (t.off + t.len) [r]).elems s = m.elems s := by
  have hl : t.len < (m.arrs t.arr).length := by have := ht.cap; omega
  apply List.ext_getElem?
  intro j
  rw [getElem?_elems0 (h.write ht hc r), getElem?_elems0 h]
  by_cases hj : j < s.len
  · rw [if_pos hj, if_pos hj]
    by_cases e : s.arr = t.arr
    · simp only [SMem.write, e, Function.update_self, ht.off, Nat.zero_add]
      rw [getElem?_writeAt _ _ _ hl, if_neg (by have := hst e; omega)]
    · simp only [SMem.write, Function.update_of_ne e]
  · rw [if_neg hj, if_neg hj]

theorem SOk.alloc {m : SMem (Reg P H)} {s : Slc} (h : SOk m s) (l : List (Reg P H)) : SOk ⟨Function.update m.arrs m.next l, m.next + 1⟩ s := by
  have key : (Function.update m.arrs m.next l) s.arr = m.arrs s.arr := Function.update_of_ne (by have := h.arr; omega) _ _
  exact ⟨Nat.lt_succ_of_lt h.arr, h.off, h.len, by simp only [key]; exact h.cap⟩

theorem elems_alloc {m : SMem (Reg P H)} {s : Slc} (h : SOk m s) (l : List (Reg P H)) :
    SMem.elems ⟨Function.update m.arrs m.next l, m.next + 1⟩ s = m.elems s := by
  have key : (Function.update m.arrs m.next l) s.arr = m.arrs s.arr := Function.update_of_ne (by have := h.arr; omega) _ _
  simp only [SMem.elems, key]

/-- What the goroutine in a call of Handle has at hand; L is what the mux holds. -/
def BReg (L : List (Reg P H)) (m : SMem (Reg P H)) (hdr : Option Slc) : RegSt P H → Prop
  | .idle => True
  | .blank _ => L = []
  | .load _ => True
  | .got _ s => s = hdrSlc hdr
  | .copying _ s acc => s = hdrSlc hdr ∧ acc = (m.elems s).take acc.length ∧ acc.length ≤ s.len
  | .store r s => SOk m s ∧ m.elems s = L ++ [r] ∧ (s.arr = (hdrSlc hdr).arr → (hdrSlc hdr).len ≤ s.len)

/-- The slice of a request is not written to any more. -/
def Old (hdr : Option Slc) (regs : List (RegSt P H × List (Reg P H))) (s : Slc) : Prop :=
  (s.arr = (hdrSlc hdr).arr → s.len ≤ (hdrSlc hdr).len) ∧ ∀ g ∈ regs, ∀ r t, g.1 = .store r t → s.arr = t.arr → s.len ≤ t.len

/-- A request that has found the registrations L when it began. -/
def BSrv (find : P → List Char → Option (List (List Char))) (m : SMem (Reg P H)) (hdr : Option Slc) (regs : List (RegSt P H × List (Reg P H))) (method url : List Char)
    (L : List (Reg P H)) : SrvSt H → Prop
  | .ready => True
  | .loop s i um => SOk m s ∧ m.elems s = L ∧ Old hdr regs s ∧ serveLoop find method url um (L.drop i) = serve find L method url
  | .done resp => resp = serve find L method url
  | .panicked => False

structure BInv (find : P → List Char → Option (List (List Char))) (L : List (Reg P H)) (Ls : Nat → List (Reg P H)) (p : St P H) : Prop where
  hdr : SOk p.mem (hdrSlc p.hdr)
  elems : p.mem.elems (hdrSlc p.hdr) = L
  nil : p.hdr = none → L = []
  regs : ∀ g ∈ p.regs, BReg L p.mem p.hdr g.1
  srvs : ∀ k v, p.srvs[k]? = some v → BSrv find p.mem p.hdr p.regs v.1 v.2.1 (Ls k) v.2.2

/-- The only goroutine in a call makes a step: the others are idle before and after. -/
theorem binv_set {find : P → List Char → Option (List (List Char))} {L L' : List (Reg P H)} {Ls : Nat → List (Reg P H)} {p : St P H} (h : BInv find L Ls p)
    {k : Nat} {g : RegSt P H × List (Reg P H)} (hidle : ∀ j g', p.regs[j]? = some g' → j ≠ k → g'.1 = .idle)
    {m' : SMem (Reg P H)} {hdr' : Option Slc} (h1 : SOk m' (hdrSlc hdr')) (h2 : m'.elems (hdrSlc hdr') = L') (h3 : hdr' = none → L' = []) (h4 : BReg L' m' hdr' g.1)
    (h5 : ∀ s, SOk p.mem s → Old p.hdr p.regs s → SOk m' s ∧ m'.elems s = p.mem.elems s ∧ (s.arr = (hdrSlc hdr').arr → s.len ≤ (hdrSlc hdr').len) ∧
      ∀ r t, g.1 = .store r t → s.arr = t.arr → s.len ≤ t.len) :
    BInv find L' Ls { p with mem := m', hdr := hdr', regs := p.regs.set k g } := by
  have hset : ∀ g' ∈ p.regs.set k g, g' = g ∨ g'.1 = .idle := by
    intro g' hg'
    obtain ⟨j, hj, hj'⟩ := List.mem_iff_getElem.mp hg'
    have e : (p.regs.set k g)[j]? = some g' := by rw [List.getElem?_eq_getElem hj, hj']
    by_cases hjk : k = j
    · subst hjk
      rw [List.getElem?_set_self (by simpa using hj)] at e
      exact .inl (Option.some.inj e).symm
    · rw [List.getElem?_set_ne hjk] at e
      exact .inr (hidle j g' e (fun e => hjk e.symm))
  refine ⟨h1, h2, h3, ?_, ?_⟩
  · intro g' hg'
    rcases hset g' hg' with rfl | hi
    · exact h4
    · rw [hi]; trivial
  · intro i v hv
    have hb := h.srvs i v hv
    obtain ⟨method, url, sv⟩ := v
    cases sv with
    | ready => trivial
    | done resp => exact hb
    | panicked => exact hb
    | loop s j um =>
      obtain ⟨b1, b2, b3, b4⟩ := hb
      obtain ⟨c1, c2, c3, c4⟩ := h5 s b1 b3
      refine ⟨c1, c2.trans b2, ⟨c3, ?_⟩, b4⟩
      intro g' hg' r t hgt
      rcases hset g' hg' with rfl | hi
      · exact c4 r t hgt
      · rw [hi] at hgt; cases hgt

theorem binv_reg (grow : Nat → Nat) (zv : Reg P H) {find : P → List Char → Option (List (List Char))} {L : List (Reg P H)} {Ls : Nat → List (Reg P H)} {p : St P H}
    (h : BInv find L Ls p) (k : Nat) (hidle : k < p.regs.length → ∀ j g', p.regs[j]? = some g' → j ≠ k → g'.1 = .idle) :
    BInv find (L ++ returns p (.reg k)) Ls (p.step grow zv find (.reg k)) := by
  cases hg : p.regs[k]? with
  | none => simp only [St.step, returns, hg, List.append_nil]; exact h
  | some g =>
    have hm : g ∈ p.regs := List.mem_of_getElem? hg
    have hidle := hidle (List.getElem?_eq_some_iff.mp hg).1
    have hb := h.regs g hm
    obtain ⟨st, todo⟩ := g
    simp only [St.step, hg]
    cases st with
    | idle =>
      simp only [returns, hg, List.append_nil]
      cases todo with
      | nil =>
        exact binv_set h hidle h.hdr h.elems h.nil trivial (fun s hs ho => ⟨hs, rfl, ho.1, fun r t e => by simp [regStep] at e⟩)
      | cons r todo =>
        refine binv_set h hidle h.hdr h.elems h.nil ?_ (fun s hs ho => ⟨hs, rfl, ho.1, fun r t e => ?_⟩)
        · simp only [regStep]
          cases hh : p.hdr with
          | none => exact h.nil hh
          | some s => trivial
        · simp only [regStep] at e
          split at e <;> cases e
    | blank r =>
      simp only [returns, hg, List.append_nil]
      have hL : L = [] := hb
      subst hL
      refine binv_set h hidle ?_ ?_ (fun e => by simp [regStep] at e) trivial ?_
      · exact ⟨by simp [regStep, SMem.make, hdrSlc], rfl, by simp [regStep, SMem.make, hdrSlc], by simp [regStep, SMem.make, hdrSlc]⟩
      · simp [regStep, SMem.make, hdrSlc, SMem.elems]
      · intro s hs ho
        refine ⟨hs.alloc _, elems_alloc hs _, ?_, fun r t e => by simp [regStep] at e⟩
        intro e
        have := hs.arr
        simp only [regStep, SMem.make, hdrSlc] at e
        omega
    | load r =>
      simp only [returns, hg, List.append_nil]
      exact binv_set h hidle h.hdr h.elems h.nil rfl (fun s hs ho => ⟨hs, rfl, ho.1, fun r t e => by simp [regStep] at e⟩)
    | got r s =>
      simp only [returns, hg, List.append_nil]
      have hs : s = hdrSlc p.hdr := hb
      subst hs
      by_cases hc : (hdrSlc p.hdr).len + 1 ≤ (hdrSlc p.hdr).cap
      · simp only [regStep, if_pos hc]
        have hw := h.hdr.write h.hdr (show (hdrSlc p.hdr).len < (hdrSlc p.hdr).cap by omega) r
        refine binv_set h hidle hw ?_ h.nil ?_ ?_
        · rw [elems_write h.hdr h.hdr (by omega) r (fun _ => Nat.le_refl _)]; exact h.elems
        · have hok : SOk (p.mem.write (hdrSlc p.hdr).arr ((hdrSlc p.hdr).off + (hdrSlc p.hdr).len) [r]) { hdrSlc p.hdr with len := (hdrSlc p.hdr).len + 1 } :=
            ⟨hw.arr, hw.off, hc, hw.cap⟩
          refine ⟨hok, ?_, fun _ => Nat.le_succ _⟩
          have hlen := length_elems0 h.hdr
          rw [h.elems] at hlen
          apply List.ext_getElem?
          intro j
          rw [getElem?_elems0 hok]
          simp only [SMem.write, Function.update_self, h.hdr.off, Nat.zero_add]
          rw [getElem?_writeAt _ _ _ (by have := h.hdr.cap; omega)]
          by_cases hj : j < (hdrSlc p.hdr).len
          · rw [if_pos (by omega), if_neg (by omega), List.getElem?_append_left (by omega), ← h.elems, getElem?_elems0 h.hdr, if_pos hj]
          · by_cases hj' : j = (hdrSlc p.hdr).len
            · rw [if_pos (by omega), if_pos hj', hj', ← hlen, List.getElem?_concat_length]
            · rw [if_neg (by omega), List.getElem?_eq_none (by simp; omega)]
        · intro s hs ho
          refine ⟨hs.write h.hdr (by omega) r, elems_write hs h.hdr (by omega) r ho.1, ho.1, ?_⟩
          intro r' t e ea
          cases e
          exact Nat.le_succ_of_le (ho.1 ea)
      · simp only [regStep, if_neg hc]
        exact binv_set h hidle h.hdr h.elems h.nil ⟨rfl, by simp, by simp⟩ (fun s hs ho => ⟨hs, rfl, ho.1, fun r t e => by simp at e⟩)
    | copying r s acc =>
      simp only [returns, hg, List.append_nil]
      obtain ⟨hs, hacc, hle⟩ := hb
      subst hs
      have hlen := length_elems0 h.hdr
      by_cases hc : acc.length < (hdrSlc p.hdr).len
      · have hx : (p.mem.elems (hdrSlc p.hdr))[acc.length]? = some ((p.mem.elems (hdrSlc p.hdr))[acc.length]'(by omega)) := List.getElem?_eq_getElem _
        have hx' : (p.mem.arrs (hdrSlc p.hdr).arr)[(hdrSlc p.hdr).off + acc.length]? = some ((p.mem.elems (hdrSlc p.hdr))[acc.length]'(by omega)) := by
          rw [← hx, getElem?_elems, if_pos hc]
        simp only [regStep, if_pos hc, hx']
        refine binv_set h hidle h.hdr h.elems h.nil ⟨rfl, ?_, by simp; omega⟩ (fun s hs ho => ⟨hs, rfl, ho.1, fun r t e => by simp at e⟩)
        simp only [List.length_append, List.length_singleton]
        rw [List.take_succ, hx, ← hacc]
        rfl
      · simp only [regStep, if_neg hc]
        have hall : acc = L := by
          rw [hacc, List.take_of_length_le (by omega), h.elems]
        refine binv_set h hidle (h.hdr.alloc _) ?_ h.nil ?_ ?_
        · rw [elems_alloc h.hdr]; exact h.elems
        · refine ⟨⟨by simp, rfl, by simp, by simp; omega⟩, ?_, ?_⟩
          · subst hall
            simp only [SMem.elems, Function.update_self, List.drop_zero]
            exact List.take_left' rfl
          · intro e
            have := h.hdr.arr
            simp only at e
            omega
        · intro s hs ho
          refine ⟨hs.alloc _, elems_alloc hs _, ho.1, ?_⟩
          intro r' t e ea
          cases e
          have := hs.arr
          simp only at ea
          omega
    | store r s =>
      simp only [returns, hg]
      obtain ⟨b1, b2, _⟩ := hb
      exact binv_set h hidle b1 b2 (fun e => by simp [regStep] at e) trivial
        (fun t ht ho => ⟨ht, rfl, fun e => ho.2 _ hm r s rfl e, fun r t e => by simp [regStep] at e⟩)

/-- Which registrations the requests found when they began. -/
def found (p : St P H) (Ls : Nat → List (Reg P H)) : Choice → Nat → List (Reg P H)
  | .srv k => match p.srvs[k]? with
    | some (_, _, .ready) => Function.update Ls k (p.mem.elems (hdrSlc p.hdr))
    | _ => Ls
  | .reg _ => Ls

theorem binv_srv (grow : Nat → Nat) (zv : Reg P H) {find : P → List Char → Option (List (List Char))} {L : List (Reg P H)} {Ls : Nat → List (Reg P H)} {p : St P H}
    (h : BInv find L Ls p) (k : Nat) : BInv find L (found p Ls (.srv k)) (p.step grow zv find (.srv k)) := by
  cases hk : p.srvs[k]? with
  | none => simp only [St.step, hk, found]; exact h
  | some v =>
    obtain ⟨method, url, sv⟩ := v
    have hlt : k < p.srvs.length := (List.getElem?_eq_some_iff.mp hk).1
    simp only [St.step, hk]
    refine ⟨h.hdr, h.elems, h.nil, h.regs, ?_⟩
    intro j v hv
    by_cases e : k = j
    · subst e
      rw [List.getElem?_set_self hlt] at hv
      cases hv
      have hb := h.srvs k _ hk
      cases sv with
      | ready =>
        simp only [found, hk, Function.update_self, srvStep]
        refine ⟨h.hdr, rfl, ⟨fun _ => Nat.le_refl _, ?_⟩, rfl⟩
        intro g hg r t hgt hst
        have := h.regs g hg
        rw [hgt] at this
        exact this.2.2 hst.symm
      | done resp => simpa only [found, hk, srvStep] using hb
      | panicked => simpa only [found, hk, srvStep] using hb
      | loop s i um =>
        simp only [found, hk]
        obtain ⟨b1, b2, b3, b4⟩ := hb
        simp only at b2 b4
        have hlen := length_elems0 b1
        rw [b2] at hlen
        by_cases hi : i < s.len
        · have hget : (p.mem.arrs s.arr)[s.off + i]? = some ((Ls k)[i]'(by omega)) := by
            rw [← List.getElem?_eq_getElem, ← b2, getElem?_elems, if_pos hi]
          have hd : (Ls k).drop i = (Ls k)[i]'(by omega) :: (Ls k).drop (i + 1) := List.drop_eq_getElem_cons (by omega)
          rw [hd] at b4
          simp only [srvStep, if_pos hi, hget]
          simp only [serveLoop] at b4
          cases hf : find ((Ls k)[i]'(by omega)).pattern url with
          | none => simp only [hf] at b4; exact ⟨b1, b2, b3, b4⟩
          | some parts =>
            simp only [hf] at b4
            by_cases hme : method = ((Ls k)[i]'(by omega)).method
            · simp only [if_pos hme] at b4 ⊢; exact b4
            · simp only [if_neg hme] at b4 ⊢; exact ⟨b1, b2, b3, b4⟩
        · rw [List.drop_eq_nil_of_le (by omega)] at b4
          simp only [srvStep, if_neg hi]
          simp only [serveLoop] at b4
          cases um <;> simp only [if_true, Bool.false_eq_true, if_false] at b4 ⊢ <;> exact b4
    · rw [List.getElem?_set_ne e] at hv
      have hb := h.srvs j v hv
      have : found p Ls (.srv k) j = Ls j := by
        cases sv <;> simp only [found, hk]
        exact Function.update_of_ne (fun e' => e e'.symm) _ _
      rw [this]
      exact hb

theorem binv_run (grow : Nat → Nat) (zv : Reg P H) {find : P → List Char → Option (List (List Char))} (sched : List Choice) :
    ∀ {L : List (Reg P H)} {Ls : Nat → List (Reg P H)} {p : St P H}, BInv find L Ls p → OneAtATime grow zv find p sched →
    ∃ Ls', BInv find (L ++ returned grow zv find p sched) Ls' (p.run grow zv find sched) ∧
      ∀ k, (∀ v, p.srvs[k]? = some v → v.2.2 ≠ .ready) → Ls' k = Ls k := by
  induction sched with
  | nil => intro L Ls p h _; exact ⟨Ls, by simpa [returned, St.run] using h, fun _ _ => rfl⟩
  | cons c sched ih =>
    intro L Ls p h ho
    have hstep : BInv find (L ++ returns p c) (found p Ls c) (p.step grow zv find c) := by
      cases c with
      | reg k => exact binv_reg grow zv h k (fun hl j g' hj hjk => ho.1 k rfl hl j g' hj hjk)
      | srv k => simpa [returns] using binv_srv grow zv h k
    obtain ⟨Ls', h1, h2⟩ := ih hstep ho.2
    refine ⟨Ls', by simpa [returned, St.run] using h1, ?_⟩
    intro k hk
    rw [h2 k ?_]
    · cases c with
      | reg j => rfl
      | srv j =>
        cases hj : p.srvs[j]? with
        | none => simp only [found, hj]
        | some w =>
          obtain ⟨me, ur, sv⟩ := w
          cases sv <;> simp only [found, hj]
          refine Function.update_of_ne ?_ _ _
          rintro rfl
          exact hk _ hj rfl
    · intro v hv
      cases c with
      | reg j =>
        simp only [St.step] at hv
        split at hv <;> exact hk v hv
      | srv j =>
        simp only [St.step] at hv
        cases hj : p.srvs[j]? with
        | none => rw [hj] at hv; exact hk v hv
        | some w =>
          obtain ⟨method, url, sv⟩ := w
          simp only [hj] at hv
          by_cases e : j = k
          · subst e
            rw [List.getElem?_set_self (List.getElem?_eq_some_iff.mp hj).1] at hv
            cases hv
            have := hk _ hj
            cases sv with
            | ready => exact absurd rfl this
            | done resp => simp [srvStep]
            | panicked => simp [srvStep]
            | loop s i um =>
              simp only [srvStep]
              split
              · split
                · simp
                · split
                  · simp
                  · split <;> simp
              · split <;> simp
          · rw [List.getElem?_set_ne e] at hv
            exact hk v hv

theorem binv_init (zv : Reg P H) (find : P → List Char → Option (List (List Char))) (hs : List (Reg P H)) (spare : Nat) (rss : List (List (Reg P H)))
    (reqs : List (List Char × List Char)) : BInv find hs (fun _ => []) (St.init zv hs spare rss reqs) := by
  refine ⟨?_, ?_, ?_, ?_, ?_⟩
  · by_cases e : hs = []
    · subst e
      exact ⟨by simp [St.init, hdrSlc], by simp [St.init, hdrSlc], by simp [St.init, hdrSlc], by simp [St.init, hdrSlc]⟩
    · exact ⟨by simp [St.init, hdrSlc, e], by simp [St.init, hdrSlc, e], by simp [St.init, hdrSlc, e], by simp [St.init, hdrSlc, e]⟩
  · by_cases e : hs = []
    · subst e; simp [St.init, hdrSlc, SMem.elems]
    · simp [St.init, hdrSlc, SMem.elems, e]
  · intro h
    by_contra e
    simp [St.init, e] at h
  · intro g hg
    simp only [St.init, List.mem_map] at hg
    obtain ⟨rs, _, rfl⟩ := hg
    trivial
  · intro k v hv
    simp only [St.init, List.getElem?_map] at hv
    obtain ⟨q, _, rfl⟩ := Option.map_eq_some_iff.mp hv
    trivial

theorem OneAtATime.left {grow : Nat → Nat} {zv : Reg P H} {find : P → List Char → Option (List (List Char))} (s1 s2 : List Choice) :
    ∀ {p : St P H}, OneAtATime grow zv find p (s1 ++ s2) → OneAtATime grow zv find p s1 ∧ OneAtATime grow zv find (p.run grow zv find s1) s2 := by
  induction s1 with
  | nil => intro p h; exact ⟨trivial, h⟩
  | cons c s1 ih => intro p h; exact ⟨⟨h.1, (ih h.2).1⟩, (ih h.2).2⟩

/-- C149 (partial). If calls of Handle do not overlap with one another, requests may still overlap with them in any way: the mux always holds the registrations that were there before and then those of
the calls that have returned, in that order. Missing: calls that overlap (`c149_lost_refuted`). -/
theorem c149_holds_partial (grow : Nat → Nat) (zv : Reg P H) (find : P → List Char → Option (List (List Char))) (hs : List (Reg P H)) (spare : Nat) (rss : List (List (Reg P H)))
    (reqs : List (List Char × List Char)) (sched : List Choice) (ho : OneAtATime grow zv find (St.init zv hs spare rss reqs) sched) :
    ((St.init zv hs spare rss reqs).run grow zv find sched).mem.elems (hdrSlc ((St.init zv hs spare rss reqs).run grow zv find sched).hdr) =
      hs ++ returned grow zv find (St.init zv hs spare rss reqs) sched := by
  obtain ⟨_, h, _⟩ := binv_run grow zv sched (binv_init zv find hs spare rss reqs) ho
  exact h.elems

/-- C149 (partial). Under the same condition a request is answered as by a mux with exactly the registrations made by the time it began, also if there are further registrations while it is
being served. -/
theorem c149_snapshot_partial (grow : Nat → Nat) (zv : Reg P H) (find : P → List Char → Option (List (List Char))) (hs : List (Reg P H)) (spare : Nat) (rss : List (List (Reg P H)))
    (reqs : List (List Char × List Char)) (s1 s2 : List Choice) (k : Nat)
    (ho : OneAtATime grow zv find (St.init zv hs spare rss reqs) (s1 ++ .srv k :: s2)) (method url : List Char) (resp : Response H)
    (hr : ((St.init zv hs spare rss reqs).run grow zv find s1).srvs[k]? = some (method, url, .ready))
    (hd : ((St.init zv hs spare rss reqs).run grow zv find (s1 ++ .srv k :: s2)).srvs[k]? = some (method, url, .done resp)) :
    resp = serve find (hs ++ returned grow zv find (St.init zv hs spare rss reqs) s1) method url := by
  obtain ⟨o1, o2⟩ := ho.left
  obtain ⟨Ls, h, _⟩ := binv_run grow zv s1 (binv_init zv find hs spare rss reqs) o1
  have hs2 := binv_srv grow zv h k
  obtain ⟨Ls', h', he⟩ := binv_run grow zv s2 hs2 o2.2
  have hrun : (St.init zv hs spare rss reqs).run grow zv find (s1 ++ .srv k :: s2) =
      ((((St.init zv hs spare rss reqs).run grow zv find s1).step grow zv find (.srv k))).run grow zv find s2 := by
    simp [St.run]
  rw [hrun] at hd
  have hb := h'.srvs k _ hd
  rw [he k ?_] at hb
  · simp only [found, hr, Function.update_self] at hb
    rw [h.elems] at hb
    exact hb
  · intro v hv
    simp only [St.step, hr] at hv
    rw [List.getElem?_set_self (List.getElem?_eq_some_iff.mp hr).1] at hv
    cases hv
    simp [srvStep]

/-- The condition of `c149_holds_partial` and `c149_snapshot_partial` holds for every schedule if only one goroutine registers. -/
theorem c149_one_goroutine (grow : Nat → Nat) (zv : Reg P H) (find : P → List Char → Option (List (List Char))) (hs : List (Reg P H)) (spare : Nat) (rs : List (Reg P H))
    (reqs : List (List Char × List Char)) (sched : List Choice) : OneAtATime grow zv find (St.init zv hs spare [rs] reqs) sched := by
  have one : ∀ (sched : List Choice) (p : St P H), p.regs.length = 1 → OneAtATime grow zv find p sched := by
    intro sched
    induction sched with
    | nil => intro p _; trivial
    | cons c sched ih =>
      intro p hp
      refine ⟨?_, ih _ ?_⟩
      · rintro k rfl hk j g hj hjk
        have := (List.getElem?_eq_some_iff.mp hj).1
        omega
      · cases c with
        | reg k => simp only [St.step]; split <;> simp [hp]
        | srv k => simp only [St.step]; split <;> simp [hp]
  exact one _ _ rfl

/-! ### What may go wrong, and examples: patterns are texts, a URL matches the pattern that is equal to it -/

/-- GET / with handler 0. -/
def routeX : Reg (List Char) Nat := ⟨['G'], ['/'], 0⟩
/-- GET a with handler 1. -/
def routeA : Reg (List Char) Nat := ⟨['G'], ['a'], 1⟩
/-- GET b with handler 2. -/
def routeB : Reg (List Char) Nat := ⟨['G'], ['b'], 2⟩

def same (p u : List Char) : Option (List (List Char)) := if p = u then some [u] else none

/-- C149 is violated: two goroutines register at the same time, both calls of Handle return nil, and one of the registrations is lost: a request made afterwards gets 404. -/
theorem c149_lost_refuted :
    let p := St.init routeX [] 0 [[routeA], [routeB]] [(['G'], ['a'])]
    let sched : List Choice := [.reg 0, .reg 1, .reg 0, .reg 1, .reg 0, .reg 1, .reg 0, .reg 0, .reg 0, .reg 1, .reg 1, .reg 1]
    returned (fun _ => 0) routeX same p sched = [routeA, routeB] ∧
    (p.run (fun _ => 0) routeX same (sched ++ [.srv 0, .srv 0, .srv 0])).srvs = [(['G'], ['a'], .done (.httpError 404 "Not Found"))] := by
  refine ⟨rfl, rfl⟩

/-- C149 is violated: the first registration of a mux is undone by a call that began before it, and had seen the nil slice. Between two steps of that call the mux holds nothing, although a call has returned. -/
theorem c149_wiped_refuted :
    let p := St.init routeX [] 0 [[routeA], [routeB]] [(['G'], ['a'])]
    let sched : List Choice := [.reg 1, .reg 0, .reg 0, .reg 0, .reg 0, .reg 0, .reg 0, .reg 1]
    returned (fun _ => 0) routeX same p sched = [routeA] ∧
    (p.run (fun _ => 0) routeX same sched).mem.elems (hdrSlc (p.run (fun _ => 0) routeX same sched).hdr) = [] := by
  refine ⟨rfl, rfl⟩

/-- C149 is violated: a registration is overwritten in the array, while a request is being served that began when the registration was in the mux. -/
theorem c149_overwritten_refuted :
    let p := St.init routeX [routeX] 1 [[routeA], [routeB]] [(['G'], ['a'])]
    let before : List Choice := [.reg 0, .reg 1, .reg 0, .reg 1, .reg 0, .reg 0]
    (p.run (fun _ => 0) routeX same before).mem.elems (hdrSlc (p.run (fun _ => 0) routeX same before).hdr) = [routeX, routeA] ∧
    returned (fun _ => 0) routeX same p (before ++ [.srv 0, .reg 1]) = [routeA] ∧
    (p.run (fun _ => 0) routeX same (before ++ [.srv 0, .reg 1, .srv 0, .srv 0, .srv 0])).srvs = [(['G'], ['a'], .done (.httpError 404 "Not Found"))] := by
  refine ⟨rfl, rfl, rfl⟩

/-- Non-vacuity of c149_answer and c149_earlier: the schedule of `c149_overwritten_refuted`, with a request for a route that was there before, and one that finds a registration made meanwhile. -/
example : ((St.init routeX [routeX] 1 [[routeA], [routeB]] [(['G'], ['/']), (['G'], ['b'])]).run (fun _ => 0) routeX same
    [.reg 0, .reg 1, .reg 0, .reg 1, .reg 0, .reg 0, .srv 0, .srv 1, .reg 1, .srv 0, .srv 1, .srv 1]).srvs =
    [(['G'], ['/'], .done (.called 0 [['/']])), (['G'], ['b'], .done (.called 2 [['b']]))] ∧ serve same [routeX] ['G'] ['/'] = .called 0 [['/']] := by
  refine ⟨rfl, rfl⟩

/-- Non-vacuity of c149_holds_partial and c149_snapshot_partial: one goroutine makes two registrations, one in place and one in a new array, while a request is served that began between them. -/
example :
    let p := St.init routeX [routeX] 1 [[routeA, routeB]] [(['G'], ['b'])]
    let s1 : List Choice := [.reg 0, .reg 0, .reg 0, .reg 0]
    let s2 : List Choice := [.srv 0, .reg 0, .reg 0, .reg 0, .srv 0, .reg 0, .reg 0, .reg 0, .reg 0, .srv 0, .srv 0]
    OneAtATime (fun _ => 0) routeX same p (s1 ++ .srv 0 :: s2) ∧ returned (fun _ => 0) routeX same p s1 = [routeA] ∧
    returned (fun _ => 0) routeX same p (s1 ++ .srv 0 :: s2) = [routeA, routeB] ∧
    (p.run (fun _ => 0) routeX same s1).srvs = [(['G'], ['b'], .ready)] ∧
    (p.run (fun _ => 0) routeX same (s1 ++ .srv 0 :: s2)).srvs = [(['G'], ['b'], .done (.httpError 404 "Not Found"))] := by
  refine ⟨?_, rfl, rfl, rfl, rfl⟩
  exact c149_one_goroutine _ _ _ _ _ _ _ _

/-- Non-vacuity of c149_answered and c149_registers: two goroutines and a request are stopped in the middle; the request goes on alone and is answered, and so does the first goroutine, which has still to copy. -/
example :
    let p := St.init routeX [routeX] 0 [[routeA], [routeB]] [(['G'], ['a'])]
    let sched : List Choice := [.reg 0, .reg 0, .reg 0, .reg 1, .srv 0]
    [(['G'], ['a'])][0]? = some (['G'], ['a']) ∧
    (p.run (fun _ => 0) routeX same (sched ++ List.replicate 2 (.srv 0))).srvs[0]? = some (['G'], ['a'], .done (.httpError 404 "Not Found")) ∧
    (p.run (fun _ => 0) routeX same (sched ++ List.replicate 3 (.reg 0))).regs[0]? = some (.idle, []) := by
  refine ⟨rfl, rfl, rfl⟩

end Micro.Rest.Conc
