import Verif.Caches.ReqConc
/-!
# Properties of the request cache (C07, C08)
-/
set_option linter.unusedSectionVars false
set_option autoImplicit false
namespace Verif.Caches

variable {K V E : Type} [DecidableEq K]

/-- What the cache remembers for a key: the stored entry, if the key is cached. -/
def RCache.Remembers (s : RCache K V E) (k : K) (x : REntry K V E) : Prop :=
  ∃ e ∈ s.lru.heap.list, e.key = k ∧ s.store[e.val]? = some x

/-- C07: a remembered result is served without fetching exactly until its expiry (inclusive); the cache does not change. -/
theorem C07_served_until_expiry (zero : V) (maxS : Int) (h0 : 0 ≤ maxS) (ops : List (ROp K V E)) (hv : ∀ op ∈ ops, op.Valid)
    (s : RCache K V E) (rs : List (Option (Res V E))) (hrun : (RCache.new maxS).run zero ops = .ok (s, rs))
    (n0 n1 n2 : Nat) (hn : 0 < n0) (k : K) (f : Fetch V E) (x : REntry K V E) (hx : s.Remembers k x) (hexp : n1 ≤ x.expire) :
    s.request zero n0 n1 n2 k f = .ok (s, { val := x.val, hm := .hit, err := x.err, called := false }) := by
  obtain ⟨s1, rs1, hr, inv, _⟩ := rrun_spec zero ops (RCache.new maxS) [] (rinv_new maxS h0) hv (by intro e he; simp [RCache.new, LRU.new] at he)
  rw [hrun] at hr
  injection hr with hr; injection hr with h1 h2; subst h1 h2
  obtain ⟨e, he, hek, hex⟩ := hx
  obtain ⟨s', r, hreq, _, _, hcase⟩ := request_spec zero s inv n0 n1 n2 hn k f
  have huniq : ∀ e' ∈ s.lru.heap.list, e'.key = k → e' = e := by
    intro e' he' hek'
    obtain ⟨i, hi⟩ := List.mem_iff_getElem?.1 he
    obtain ⟨j, hj⟩ := List.mem_iff_getElem?.1 he'
    have := index_inj inv.lru.wf.index hi hj (by rw [hek, hek'])
    subst this; rw [hi] at hj; injection hj with hj; exact hj.symm
  rcases hcase with ⟨e', he', hek', y, hy, hge, rfl, rfl⟩ | ⟨e', he', hek', y, hy, hlt, _, _⟩ | ⟨hk', _⟩
  · rw [huniq e' he' hek', hex] at hy; injection hy with hy; rw [hreq, hy]
  · rw [huniq e' he' hek', hex] at hy; injection hy with hy; rw [← hy] at hlt; omega
  · exact absurd hek (hk' e he)

/-- C07: otherwise (not cached, or expired) the fetch function is called exactly once, its answer is returned, and if the key is
still cached afterwards the cache remembers that answer until `now + ttl` when the ttl is positive, and nothing servable otherwise. -/
theorem C07_otherwise_fetches (zero : V) (maxS : Int) (h0 : 0 ≤ maxS) (ops : List (ROp K V E)) (hv : ∀ op ∈ ops, op.Valid)
    (s : RCache K V E) (rs : List (Option (Res V E))) (hrun : (RCache.new maxS).run zero ops = .ok (s, rs))
    (n0 n1 n2 : Nat) (hn : 0 < n0) (k : K) (f : Fetch V E) (hx : ∀ x, s.Remembers k x → x.expire < n1) :
    ∃ s' r, s.request zero n0 n1 n2 k f = .ok (s', r) ∧ r.called = true ∧ r.val = f.val ∧ r.err = f.err ∧
      r.hm = (if f.err.isSome then .err else .miss) ∧
      (∀ x, s'.Remembers k x →
        (0 < f.ttl → x.val = f.val ∧ x.err = f.err ∧ (x.expire : Int) = n2 + f.ttl) ∧ (f.ttl ≤ 0 → x.expire = 0)) ∧
      (∀ k' x, k' ≠ k → s'.Remembers k' x → s.Remembers k' x) := by
  obtain ⟨s1, rs1, hr, inv, _⟩ := rrun_spec zero ops (RCache.new maxS) [] (rinv_new maxS h0) hv (by intro e he; simp [RCache.new, LRU.new] at he)
  rw [hrun] at hr
  injection hr with hr; injection hr with h1 h2; subst h1 h2
  obtain ⟨s', r, hreq, inv', _, hcase⟩ := request_spec zero s inv n0 n1 n2 hn k f
  have hres : (fetchRes f).called = true ∧ (fetchRes f).val = f.val ∧ (fetchRes f).err = f.err ∧
      (fetchRes f).hm = (if f.err.isSome then .err else .miss) := by
    unfold fetchRes; cases f.err <;> simp
  have hcomp : ∀ y : REntry K V E, (0 < f.ttl → (y.complete f n2).val = f.val ∧ (y.complete f n2).err = f.err ∧
      ((y.complete f n2).expire : Int) = n2 + f.ttl) ∧ (f.ttl ≤ 0 → (y.complete f n2).expire = 0) := by
    intro y
    unfold REntry.complete
    constructor
    · intro ht; rw [if_pos ht]; refine ⟨rfl, rfl, ?_⟩; simp only; omega
    · intro ht; rw [if_neg (by omega)]
  have huniq : ∀ (c : RCache K V E), RInv c → ∀ e ∈ c.lru.heap.list, ∀ e' ∈ c.lru.heap.list, e'.key = e.key → e' = e := by
    intro c ic e he e' he' hek'
    obtain ⟨i, hi⟩ := List.mem_iff_getElem?.1 he
    obtain ⟨j, hj⟩ := List.mem_iff_getElem?.1 he'
    have := index_inj ic.lru.wf.index hi hj hek'.symm
    subst this; rw [hi] at hj; injection hj with hj; exact hj.symm
  rcases hcase with ⟨e', he', hek', y, hy, hge, _, _⟩ | ⟨e', he', hek', y, hy, hlt, rfl, rfl⟩ | ⟨hk', rfl, hst, hmem⟩
  · have := hx y ⟨e', he', hek', hy⟩; omega
  · refine ⟨_, _, hreq, hres.1, hres.2.1, hres.2.2.1, hres.2.2.2, ?_, ?_⟩
    · rintro x ⟨e, he, hek, hex⟩
      have := huniq _ inv e' he' e he (by rw [hek, hek'])
      subst this
      simp only [List.getElem?_set_self (lt_of_get hy)] at hex
      injection hex with hex
      rw [← hex]; exact hcomp y
    · rintro k' x hne ⟨e, he, hek, hex⟩
      have hp : e.val ≠ e'.val := by
        intro heq
        obtain ⟨z, hz, hzk⟩ := inv.ptr e he
        obtain ⟨z', hz', hzk'⟩ := inv.ptr e' he'
        rw [heq, hz'] at hz; injection hz with hz
        rw [← hz, hzk', hek', hek] at hzk
        exact hne hzk.symm
      simp only [List.getElem?_set_ne (Ne.symm hp)] at hex
      exact ⟨e, he, hek, hex⟩
  · refine ⟨_, _, hreq, hres.1, hres.2.1, hres.2.2.1, hres.2.2.2, ?_, ?_⟩
    · rintro x ⟨e, he, hek, hex⟩
      rcases hmem e he with h | ⟨_, hve⟩
      · exact absurd hek (hk' e h)
      · rw [hst, hve, List.getElem?_concat_length] at hex
        injection hex with hex
        rw [← hex]; exact hcomp _
    · rintro k' x hne ⟨e, he, hek, hex⟩
      rcases hmem e he with h | ⟨hke, _⟩
      · obtain ⟨z, hz, hzk⟩ := inv.ptr e h
        rw [hst, List.getElem?_append_left (lt_of_get hz)] at hex
        exact ⟨e, h, hek, hex⟩
      · rw [hek] at hke; exact absurd hke hne

/-- C07: along any sequential history, a hit returns the value and error of the latest fetch for that key, which had a positive ttl
that has not run out, and the key was not invalidated since. -/
theorem C07_hit_is_latest_fetch (zero : V) (maxS : Int) (h0 : 0 ≤ maxS) (ops : List (ROp K V E)) (hv : ∀ op ∈ ops, op.Valid)
    (s s' : RCache K V E) (rs : List (Option (Res V E))) (hrun : (RCache.new maxS).run zero ops = .ok (s, rs))
    (n0 n1 n2 : Nat) (hn : 0 < n0) (hn1 : 0 < n1) (k : K) (f : Fetch V E) (r : Res V E)
    (hreq : s.request zero n0 n1 n2 k f = .ok (s', r)) (hhit : r.called = false) :
    r.hm = .hit ∧ ∃ exp, n1 ≤ exp ∧ FetchedLast k r.val r.err exp (ops.zip rs) := by
  obtain ⟨s1, rs1, hr, inv, hh⟩ := rrun_spec zero ops (RCache.new maxS) [] (rinv_new maxS h0) hv (by intro e he; simp [RCache.new, LRU.new] at he)
  rw [hrun] at hr
  injection hr with hr; injection hr with h1 h2; subst h1 h2
  obtain ⟨s2, r2, hreq2, inv', _, hcase⟩ := request_spec zero s inv n0 n1 n2 hn k f
  rw [hreq] at hreq2
  injection hreq2 with hr; injection hr with h1 h2; subst h1 h2
  rcases hcase with ⟨e', he', hek', y, hy, hge, _, hr⟩ | ⟨e', he', hek', y, hy, hlt, _, hr⟩ | ⟨hk', hr, _⟩
  · have := hh e' he' y hy (by omega)
    rw [hek'] at this
    rw [hr]
    exact ⟨rfl, y.expire, hge, by simpa using this⟩
  · rw [hr, fetchRes_called] at hhit; cases hhit
  · rw [hr, fetchRes_called] at hhit; cases hhit

/-- C07: no sequence of sequential calls panics. -/
theorem C07_no_panic (zero : V) (maxS : Int) (h0 : 0 ≤ maxS) (ops : List (ROp K V E)) (hv : ∀ op ∈ ops, op.Valid) :
    ∃ s rs, (RCache.new maxS : RCache K V E).run zero ops = .ok (s, rs) := by
  obtain ⟨s, rs, hr, _⟩ := rrun_spec zero ops (RCache.new maxS) [] (rinv_new maxS h0) hv (by intro e he; simp [RCache.new, LRU.new] at he)
  exact ⟨s, rs, hr⟩

/-- C08: in every interleaving no step panics, and two calls are never inside a fetch on the same entry. -/
theorem C08_fetch_exclusive (zero : V) (maxS : Int) (h0 : 0 ≤ maxS) (as : List (Act K V E)) (hv : ∀ a ∈ as, a.Valid) :
    (Sys.init maxS : Sys K V E).exec zero as ≠ .error .panic ∧
    ∀ s, (Sys.init maxS : Sys K V E).exec zero as = .ok s →
      ∀ t t' k k' p hm hm' b b', s.pc t = .fetching k p hm b → s.pc t' = .fetching k' p hm' b' → t = t' := by
  rcases exec_inv zero as _ (sinv_init maxS h0) hv with h | ⟨s, h, inv⟩
  · rw [h]; exact ⟨(by intro hc; cases hc), (by intro s hc; cases hc)⟩
  · rw [h]
    refine ⟨(by intro hc; cases hc), ?_⟩
    intro s2 hs2 t t' k k' p hm hm' b b' h1 h2
    injection hs2 with hs2
    subst hs2
    obtain ⟨e, he, _⟩ := inv.ref t k p (by rw [h1]; rfl)
    have o1 := (inv.own p e he t).2 (by rw [h1]; rfl)
    have o2 := (inv.own p e he t').2 (by rw [h2]; rfl)
    rw [o1] at o2; injection o2

/-- C08: in every interleaving, a call that returns a hit returns the value and error of a completed fetch for its own key that
had a positive ttl. -/
theorem C08_hit_sound (zero : V) (maxS : Int) (h0 : 0 ≤ maxS) (as : List (Act K V E)) (hv : ∀ a ∈ as, a.Valid)
    (s : Sys K V E) (hex : (Sys.init maxS : Sys K V E).exec zero as = .ok s) (t : Nat) (k : K) (r : Res V E)
    (hpc : s.pc t = .done k r) (hhit : r.hm = .hit) :
    ∃ d ∈ s.log, d.key = k ∧ d.f.val = r.val ∧ d.f.err = r.err ∧ 0 < d.f.ttl := by
  rcases exec_inv zero as _ (sinv_init maxS h0) hv with h | ⟨s', h, inv⟩
  · rw [h] at hex; cases hex
  · rw [h] at hex; injection hex with hex; subst hex
    exact inv.res t k r hpc hhit

/-- C08: whatever the interleaving, a call returned a hit exactly if it did not fetch itself. -/
theorem C08_hit_free (zero : V) (maxS : Int) (as : List (Act K V E)) (s : Sys K V E) (h : (Sys.init maxS : Sys K V E).exec zero as = .ok s) (t : Nat) (k : K) (r : Res V E)
    (ht : s.pc t = .done k r) : r.hm = .hit ↔ r.called = false := by
  have hres : ∀ f : Fetch V E, (fetchRes f).hm = .hit ↔ (fetchRes f).called = false := by intro f; unfold fetchRes; split <;> simp
  have key : ∀ (as : List (Act K V E)) (s0 s : Sys K V E), (∀ t k r, s0.pc t = .done k r → (r.hm = .hit ↔ r.called = false)) → s0.exec zero as = .ok s →
      ∀ t k r, s.pc t = .done k r → (r.hm = .hit ↔ r.called = false) := by
    intro as
    induction as with
    | nil => intro s0 s h0 h; cases h; exact h0
    | cons a as ih =>
      intro s0 s h0 h
      simp only [Sys.exec] at h
      split at h
      · cases h
      · rename_i s1 h1
        refine ih s1 s ?_ h
        have put : ∀ (pc : Nat → PC K V E) (t : Nat) (p : PC K V E), (∀ t k r, pc t = .done k r → (r.hm = .hit ↔ r.called = false)) → (∀ k r, p = .done k r → (r.hm = .hit ↔ r.called = false)) →
            ∀ t' k r, setPC pc t p t' = .done k r → (r.hm = .hit ↔ r.called = false) := by
          intro pc t p h1 h2 t' k r h
          unfold setPC at h
          split at h
          · exact h2 k r h
          · exact h1 t' k r h
        cases a with
        | call t k =>
          simp only [Sys.step] at h1
          split at h1 <;> cases h1
          · exact put _ _ _ h0 (fun _ _ h => nomatch h)
          · exact put _ _ _ h0 (fun _ _ h => nomatch h)
        | lookup t now =>
          simp only [Sys.step] at h1
          split at h1
          · split at h1 <;> cases h1
            exact put _ _ _ h0 (fun _ _ h => nomatch h)
          · cases h1
        | lock t =>
          simp only [Sys.step] at h1
          split at h1
          · split at h1
            · cases h1
            · split at h1 <;> cases h1
              exact put _ _ _ h0 (fun _ _ h => nomatch h)
          · cases h1
        | check t now =>
          simp only [Sys.step] at h1
          split at h1
          · split at h1
            · cases h1
            · split at h1 <;> cases h1
              · exact put _ _ _ h0 (fun _ _ h => by cases h; simp)
              · exact put _ _ _ h0 (fun _ _ h => nomatch h)
          · cases h1
        | finish t f now =>
          simp only [Sys.step] at h1
          split at h1
          · split at h1 <;> cases h1
            exact put _ _ _ h0 (fun _ _ h => by cases h; exact hres f)
          · cases h1
        | inv k =>
          simp only [Sys.step] at h1
          split at h1 <;> cases h1
          exact h0
  exact key as _ s (by simp [Sys.init]) h t k r ht

/-- C08: a fetch on an entry that still held an unexpired result happens at most once in the life of that entry. -/
theorem C08_redundant_fetch_at_most_once (zero : V) (maxS : Int) (h0 : 0 ≤ maxS) (as : List (Act K V E)) (hv : ∀ a ∈ as, a.Valid)
    (s : Sys K V E) (hex : (Sys.init maxS : Sys K V E).exec zero as = .ok s) :
    s.log.Pairwise (fun d d' => ¬ (d.fresh = true ∧ d'.fresh = true ∧ d.p = d'.p)) := by
  have ci := exec_cinv zero as _ s (sinv_init maxS h0) (cinv_init maxS) hv hex
  have := ci.once
  rw [List.pairwise_iff_forall_sublist] at this ⊢
  intro a b hab ⟨ha, hb, hp⟩
  have hsub := hab.subset
  exact this hab (ci.lfresh a (hsub (by simp)) ha) (ci.lfresh b (hsub (by simp)) hb) hp

/-- Two concurrent first callers: call 1 finds the entry that call 0 created and locks it first. -/
def doubleFetch : List (Act Nat Nat Unit) :=
  [.call 0 7, .call 1 7, .lookup 0 1, .lookup 1 2, .lock 1, .check 1 3, .finish 1 ⟨70, 1000, none⟩ 4,
   .lock 0, .check 0 5, .finish 0 ⟨71, 1000, none⟩ 6]

/-- C08 (negation of single flight): two concurrent callers of the same key both fetch, although the first fetch completed with a
ttl of 1000 before the second one started, and nothing was invalidated or evicted. -/
theorem C08_single_flight_violated :
    ∃ s, (Sys.init 10).exec 0 doubleFetch = .ok s ∧
      (∃ r, s.pc 0 = .done 7 r ∧ r.called = true) ∧ (∃ r, s.pc 1 = .done 7 r ∧ r.called = true) ∧
      s.log.map (fun d => (d.key, d.f.ttl, d.now)) = [(7, 1000, 4), (7, 1000, 6)] ∧ s.cache.lru.keys = [7] :=
  ⟨_, rfl, ⟨_, rfl, rfl⟩, ⟨_, rfl, rfl⟩, rfl, rfl⟩

/-! ### concrete cases meeting the hypotheses -/

/-- fetch with ttl 10, hit at the boundary, expired refetch failing with a cached error, hit on the error, zero ttl, refetch. -/
def reqSample : List (ROp Nat Nat String) :=
  [.request 1 1 2 5 ⟨50, 10, none⟩, .request 3 12 12 5 ⟨51, 10, none⟩, .request 4 13 14 5 ⟨0, 7, some "e"⟩,
   .request 5 21 21 5 ⟨52, 1, none⟩, .request 6 22 22 5 ⟨53, 0, none⟩, .request 7 22 22 5 ⟨54, -1, none⟩]

example : ∀ op ∈ reqSample, op.Valid := by simp [reqSample, ROp.Valid]

example : ∃ s rs, (RCache.new 2).run 0 reqSample = .ok (s, rs) ∧
    rs.map (fun r => r.map (fun r => (r.val, r.hm, r.err))) =
      [some (50, .miss, none), some (50, .hit, none), some (0, .err, some "e"), some (0, .hit, some "e"), some (53, .miss, none),
       some (54, .miss, none)] := ⟨_, _, rfl, rfl⟩

example : ∃ s, (Sys.init 10).exec 0 doubleFetch = .ok s ∧ s.log.map (·.fresh) = [false, true] := ⟨_, rfl, rfl⟩

example : ∀ a ∈ doubleFetch, a.Valid := by simp [doubleFetch, Act.Valid]

end Verif.Caches
