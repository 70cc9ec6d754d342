import Verif.Proofs.Leak
import Verif.Props.Sharded

/-!
# Properties C98 and C99: dropped guards use up a shared cache
-/

namespace QuickCache.Props
section
variable {K V RS : Type} [DecidableEq K] {o : Options} {s0 : SyncCache K V}
open Conc Spec

/-- Whatever the configuration and the key, any number of slots of its shard can be in use although the whole cache is empty
and nobody is in a call: after that many lookups whose guards were dropped. (The condition of C99_tidy cannot be left out.) -/
theorem C99_leak (c : Cfg K V RS) (hb : SyncCache.withOptions o = .ok s0) (k : K) {n : Nat} (hn : n + 1 < 2 ^ 32) :
    ∃ tr s st, Cache.Run c (Cache.start s0) tr s ∧ items s = [] ∧ s.shards[(Cache.start s0).home c k]? = some st ∧
      st.writer = none ∧ st.readers = [] ∧ st.shard.slots = n ∧ additions ((Cache.start s0).home c k) tr = n := by
  have hk := home_lt (c := c) hb k
  obtain ⟨j, -, -, hns, hs0⟩ := built hb
  rw [hns] at hk
  generalize hotTarget o s0 = T at hs0
  subst hs0
  obtain ⟨tr, st, h1, h2, h3⟩ := leak_run hk n hn
  refine ⟨tr, _, st, h1, h2.items hn _, ?_, h2.writer, h2.readers, h2.slots, h3⟩
  exact List.getElem?_set_self (by rw [List.length_replicate]; exact hk)

/-- After `2^32 - 2` of them the next such lookup panics: the bound of C98_full and C98_safe is exact. -/
theorem C98_exact (c : Cfg K V RS) (hb : SyncCache.withOptions o = .ok s0) (k : K) :
    ∃ tr s a, Cache.Run c (Cache.start s0) tr s ∧ items s = [] ∧ additions ((Cache.start s0).home c k) tr = 2 ^ 32 - 2 ∧
      s.exec c ((Cache.start s0).home c k) (.upsert a) = some (.error .slabFull) := by
  have hk := home_lt (c := c) hb k
  obtain ⟨j, -, -, hns, hs0⟩ := built hb
  rw [hns] at hk
  generalize hotTarget o s0 = T at hs0
  subst hs0
  obtain ⟨n, hn⟩ : ∃ n, n + 2 = 2 ^ 32 := ⟨4294967294, rfl⟩
  obtain ⟨tr, st, h1, h2, h3⟩ := leak_run hk n (by omega)
  obtain ⟨l, st', a, h4, h5, h6, h7⟩ := h2.full hn
  have hl := h4.lift h1 (List.getElem?_set_self (by rw [List.length_replicate]; exact hk)) rfl
  rw [List.set_set] at hl
  refine ⟨_, _, a, hl, h5.items (by omega) _, ?_, ?_⟩
  · show additions (shardIdx _ (c.hash k)) _ = _
    unfold additions at h3 ⊢
    rw [onShard_append, List.countP_append, h3, h6]
    omega
  · exact Cache.exec_lift (k := k) (List.getElem?_set_self (by rw [List.length_replicate]; exact hk)) rfl (Or.inl rfl) h7

end

/-- The options of the example of C41 meet the hypothesis; key 7 belongs to the second of the two shards. -/
example : SyncCache.withOptions sxOptions = .ok sxNew ∧ (Conc.Cache.start sxNew).home sxCfg 7 = 1 :=
  ⟨sxBuilt, by decide +kernel⟩

end QuickCache.Props
