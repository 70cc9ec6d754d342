{"id": "C01", "title": "Lookups return the last stored value", "statement": "Whenever get, peek, get_mut, peek_mut, iter or get_ref_or_guard yields a value v for key k, v is the value most recently stored for k: by the last insert, successful replace, guard insert or write through a mutable reference, or by before_evict rewriting it in place; and k was not removed, cleared, drained or filtered out by retain since.", "quantifier": "every key type, value type, hash function (including total collisions), weighter, lifecycle, capacity and finite sequence of API calls starting from a freshly built cache", "why_tests_cant": "A stale or foreign value can depend on an arbitrary long history of collisions, evictions and slot reuse.", "anchors": ["src/shard.rs: get, peek, insert, insert_existing, replace_placeholder, remove_internal", "src/unsync.rs: Cache"]}
{"id": "C02", "title": "The cache is exactly a map minus the evicted items", "statement": "After any call, the contents of the cache equal the contents of a plain map that performed the same writes and removals and that dropped exactly the items the lifecycle was told about through on_evict (and rewrote exactly the items that before_evict turned weightless). Nothing disappears silently and nothing comes back.", "quantifier": "every key type, value type, hash function (including total collisions), weighter, lifecycle, capacity and finite sequence of API calls starting from a freshly built cache", "why_tests_cant": "It is an equality over all histories; a test sees finitely many eviction orders.", "anchors": ["src/shard.rs: advance_cold, advance_hot, insert, insert_existing, replace_placeholder, handle_insert_overweight"]}
{"id": "C03", "title": "Capacity bound for evictable weight", "statement": "In every state reachable without growing or unpinning an item through a mutable reference, the summed weight of the items that are not pinned is at most capacity(); if nothing is pinned, weight() <= capacity().", "quantifier": "every key type, value type, hash function (including total collisions), weighter, lifecycle, capacity and finite sequence of API calls starting from a freshly built cache, excluding mutable-reference writes that raise a weight or unpin", "why_tests_cant": "The bound must survive every order of inserts, promotions, replacements and evictions.", "anchors": ["src/shard.rs: insert, insert_existing, replace_placeholder, validate"]}
{"id": "C04", "title": "weight() is the exact sum of item weights", "statement": "weight() always equals the sum over the items yielded by iter() of the weighter's weight of that item.", "quantifier": "every key type, value type, hash function (including total collisions), weighter, lifecycle, capacity and finite sequence of API calls starting from a freshly built cache", "why_tests_cant": "Incrementally maintained counters drift only on particular paths of long histories.", "anchors": ["src/shard.rs: weight, weight_hot, weight_cold, cold_change_weight"]}
{"id": "C05", "title": "len() and is_empty() are exact", "statement": "len() always equals the number of items yielded by iter(), and is_empty() holds exactly when iter() yields nothing.", "quantifier": "every key type, value type, hash function (including total collisions), weighter, lifecycle, capacity and finite sequence of API calls starting from a freshly built cache", "why_tests_cant": "Incrementally maintained counters drift only on particular paths of long histories.", "anchors": ["src/shard.rs: len, num_hot, num_cold", "src/unsync.rs: len, is_empty"]}
{"id": "C06", "title": "No call panics or reaches undefined behaviour", "statement": "No call ever hits an unwrap of None, an unreachable!, an unreachable_unchecked, an out-of-bounds index, a failed debug assertion or an arithmetic underflow. The only panics possible are u64 overflow when the total weight plus the new weight reaches 2^64 and slab capacity overflow at 2^32-2 slots. An insertion of an item that can be admitted, with a slot to spare, panics exactly if its weight and that of the other items reach 2^64.", "quantifier": "every key type, value type, hash function (including total collisions), weighter, lifecycle, capacity and finite sequence of API calls starting from a freshly built cache", "why_tests_cant": "The unsafe unreachable_unchecked branches are undefined behaviour if reachable; testing can only fail to find a path.", "anchors": ["src/shard.rs", "src/linked_slab.rs: link, unlink, remove, insert"]}
{"id": "C07", "title": "Every call terminates", "statement": "Every eviction loop stops: for every reachable state each call finishes after finitely many iterations, even if all items are pinned, all are referenced, or before_evict makes every victim weightless.", "quantifier": "every key type, value type, hash function (including total collisions), weighter, lifecycle, capacity and finite sequence of API calls starting from a freshly built cache", "why_tests_cant": "Termination over all ring contents and reference counters cannot be sampled.", "anchors": ["src/shard.rs: advance_cold, advance_hot, insert, insert_existing, replace_placeholder"]}
{"id": "C08", "title": "Pinned items are never evicted", "statement": "An item for which is_pinned is true is never passed to before_evict or on_evict as an eviction victim and stays in the cache with its value until it is explicitly removed, overwritten, mutated, cleared or filtered out.", "quantifier": "every key type, value type, hash function (including total collisions), weighter, lifecycle, capacity and finite sequence of API calls starting from a freshly built cache", "why_tests_cant": "Needs every interleaving of pinned and unpinned items in the eviction rings.", "anchors": ["src/lib.rs: Lifecycle::is_pinned", "src/shard.rs: advance_cold, advance_hot"]}
{"id": "C09", "title": "Zero-weight items are never evicted", "statement": "An item of weight zero is never an eviction victim: it stays in the cache with its value until it is explicitly removed, overwritten, mutated, cleared or filtered out.", "quantifier": "every key type, value type, hash function (including total collisions), weighter, lifecycle, capacity and finite sequence of API calls starting from a freshly built cache", "why_tests_cant": "Depends on zero-weight items staying out of the eviction rings along every path.", "anchors": ["src/lib.rs: Weighter::weight", "src/shard.rs: cold_change_weight, insert_existing"]}
{"id": "C10", "title": "At most one entry per key", "statement": "iter() and drain() never yield two items with the same key.", "quantifier": "every key type, value type, hash function (including total collisions), weighter, lifecycle, capacity and finite sequence of API calls starting from a freshly built cache", "why_tests_cant": "Duplicate entries can only arise from rare combinations of hash collisions, ghosts and placeholders.", "anchors": ["src/shard.rs: search, insert, upsert_placeholder"]}
{"id": "C11", "title": "All read APIs agree", "statement": "For every key, get, peek, contains_key, get_mut, peek_mut and membership in iter() agree with each other on presence and value.", "quantifier": "every key type, value type, hash function (including total collisions), weighter, lifecycle, capacity and finite sequence of API calls starting from a freshly built cache", "why_tests_cant": "Requires the hash index and the slab to stay in one-to-one correspondence forever.", "anchors": ["src/shard.rs: search_resident, contains, get, peek, iter"]}
{"id": "C12", "title": "remove removes exactly one key", "statement": "remove(k) returns Some((k, v)) exactly when k was present with value v, leaves k absent, leaves every other key with its value, and never notifies the lifecycle.", "quantifier": "every key type, value type, hash function (including total collisions), weighter, lifecycle, capacity and finite sequence of API calls starting from a freshly built cache", "why_tests_cant": "Collisions and ghosts with the same hash may sit in any bucket order.", "anchors": ["src/shard.rs: remove, remove_internal, search"]}
{"id": "C13", "title": "replace only touches existing keys", "statement": "replace(k, v) on an absent key returns Err with k and the value handed back and changes no item; on a present key it either returns Ok and k was overwritten, or (v too heavy to be admitted) returns Err and the old item was evicted.", "quantifier": "every key type, value type, hash function (including total collisions), weighter, lifecycle, capacity and finite sequence of API calls starting from a freshly built cache", "why_tests_cant": "Absent includes ghosts, placeholders and colliding keys.", "anchors": ["src/shard.rs: insert, insert_existing, handle_insert_overweight", "src/sync.rs: replace"]}
{"id": "C14", "title": "A fresh insert is admitted and readable", "statement": "If k has no entry of any kind and v is not overweight, then right after insert(k, v) the cache holds exactly v for k.", "quantifier": "every key type, value type, hash function (including total collisions), weighter, lifecycle, capacity and finite sequence of API calls starting from a freshly built cache", "why_tests_cant": "Must hold in every eviction state, including when everything else is evicted or pinned.", "anchors": ["src/shard.rs: insert"]}
{"id": "C15", "title": "insert of a fitting item is always readable afterwards", "statement": "For every key k and value v whose weight fits, get(k) right after insert(k, v) returns v.", "quantifier": "every key type, value type, hash function (including total collisions), weighter, lifecycle, capacity and finite sequence of API calls starting from a freshly built cache", "why_tests_cant": "A counterexample needs a specific combination of ghost hit and reference counters.", "anchors": ["src/shard.rs: insert_existing, advance_hot"]}
{"id": "C16", "title": "Overweight items are rejected and replace nothing silently", "statement": "insert(k, v) with unpinned v whose weight exceeds the hot target even after before_evict leaves k absent, hands v to on_evict (and the previous value of k, if any), and changes no other item.", "quantifier": "every key type, value type, hash function (including total collisions), weighter, lifecycle, capacity and finite sequence of API calls starting from a freshly built cache", "why_tests_cant": "All previous states of k and of the rest of the cache.", "anchors": ["src/shard.rs: handle_insert_overweight, handle_overweight_replace_placeholder"]}
{"id": "C17", "title": "No needless eviction", "statement": "An insert, replace or guard insert after which the total weight fits in capacity() evicts nothing: no lifecycle callback is made for any other key.", "quantifier": "every key type, value type, hash function (including total collisions), weighter, lifecycle, capacity and finite sequence of API calls starting from a freshly built cache", "why_tests_cant": "Ranges over all cache states.", "anchors": ["src/shard.rs: insert, insert_existing, replace_placeholder"]}
{"id": "C18", "title": "retain is an exact filter", "statement": "After retain(f) the cache holds exactly the items for which f returned true, with unchanged values, and the lifecycle is not notified.", "quantifier": "every key type, value type, hash function (including total collisions), weighter, lifecycle, capacity and finite sequence of API calls starting from a freshly built cache and every predicate and bucket order", "why_tests_cant": "Order of removals while unlinking from rings matters.", "anchors": ["src/shard.rs: retain, remove_internal"]}
{"id": "C19", "title": "clear and drain empty the cache", "statement": "After clear() or drain() (consumed or not) the cache is empty with weight 0, and drain yields every item exactly once; the emptied cache then behaves like a freshly built one.", "quantifier": "every key type, value type, hash function (including total collisions), weighter, lifecycle, capacity and finite sequence of API calls starting from a freshly built cache", "why_tests_cant": "All prior states, including those with placeholders and ghosts.", "anchors": ["src/shard.rs: clear, drain", "src/linked_slab.rs: drain"]}
{"id": "C20", "title": "Every stored item is accounted for exactly once", "statement": "For every request, the multiset of items stored before plus the item being inserted equals the multiset of items stored afterwards plus the items handed to on_evict, up to before_evict rewriting values. No item is handed out twice or lost.", "quantifier": "every key type, value type, hash function (including total collisions), weighter, lifecycle, capacity and finite sequence of API calls starting from a freshly built cache", "why_tests_cant": "Exactly-once is a global property of the full history.", "anchors": ["src/shard.rs: advance_cold, advance_hot, insert_existing", "src/lib.rs: Lifecycle::on_evict"]}
{"id": "C21", "title": "Eviction protocol: before_evict precedes on_evict", "statement": "Every eviction victim k is passed to before_evict with its current value; if its weight is then zero it stays in the cache with the rewritten value, otherwise on_evict receives exactly k with the rewritten value as the very next lifecycle call and the item is gone. The request state is threaded through the callbacks in this order.", "quantifier": "every key type, value type, hash function (including total collisions), weighter, lifecycle, capacity and finite sequence of API calls starting from a freshly built cache", "why_tests_cant": "Ranges over all lifecycles, which may rewrite values and weights arbitrarily.", "anchors": ["src/lib.rs: Lifecycle::before_evict", "src/shard.rs: advance_cold, advance_hot"]}
{"id": "C22", "title": "Ghost memory is bounded", "statement": "The number of remembered evicted hashes never exceeds estimated_items_capacity * ghost_allocation.", "quantifier": "every key type, value type, hash function (including total collisions), weighter, lifecycle, capacity and finite sequence of API calls starting from a freshly built cache", "why_tests_cant": "Counter and ring must agree in all histories.", "anchors": ["src/shard.rs: advance_ghost, num_non_resident, capacity_non_resident"]}
{"id": "C23", "title": "Memory is bounded by what is stored", "statement": "The number of internal slots in use is at most len() plus the ghost bound plus the number of live guards.", "quantifier": "every key type, value type, hash function (including total collisions), weighter, lifecycle, capacity and finite sequence of API calls starting from a freshly built cache", "why_tests_cant": "A leak shows only in unbounded histories.", "anchors": ["src/shard.rs: remove_placeholder, upsert_placeholder", "src/unsync.rs: get_or_insert_with", "src/linked_slab.rs: insert"]}
{"id": "C24", "title": "Slots are reused", "statement": "The backing vector never grows while a freed slot is available, so its length equals the largest number of slots ever simultaneously in use since the last clear/drain. The same holds for the calls of a cache: one call adds at most one slot, and only if all are in use.", "quantifier": "every sequence of slab operations, every history of calls of a cache", "why_tests_cant": "Free-list corruption shows only after particular remove/insert orders.", "anchors": ["src/linked_slab.rs: insert, remove"]}
{"id": "C25", "title": "Slab refines a set of circular lists", "statement": "Under any valid sequence of insert, link, unlink and remove, tokens never alias, an item is read back unchanged until replaced or removed, and following next/prev from any token walks exactly the circular list the operations built, in order.", "quantifier": "every element type and every finite sequence of slab operations on any number of lists", "why_tests_cant": "Pointer structure over unbounded histories.", "anchors": ["src/linked_slab.rs: insert, link, unlink, remove, get"]}
{"id": "C26", "title": "get_or_insert_with (unsync) computes only on a miss", "statement": "get_or_insert_with(k, f) on a present key returns its value, does not call f and changes nothing; on an absent key it calls f once, and returns the stored value exactly when it was admitted; if f fails no stored item changes.", "quantifier": "every key type, value type, hash function (including total collisions), weighter, lifecycle, capacity and finite sequence of API calls starting from a freshly built cache", "why_tests_cant": "All states including leftover placeholders of failed loads.", "anchors": ["src/unsync.rs: get_or_insert_with, get_mut_or_insert_with"]}
{"id": "C27", "title": "Guards insert or leave no trace", "statement": "get_ref_or_guard/get_mut_or_guard return the value iff the key is present; otherwise inserting through the guard behaves as inserting the key, and dropping the guard leaves all stored items unchanged.", "quantifier": "every key type, value type, hash function (including total collisions), weighter, lifecycle, capacity and finite sequence of API calls starting from a freshly built cache", "why_tests_cant": "All prior states, with collisions and ghosts.", "anchors": ["src/unsync.rs: Guard", "src/shard.rs: upsert_placeholder, replace_placeholder, remove_placeholder"]}
{"id": "C28", "title": "Writes through mutable references keep the accounting exact", "statement": "After any write through get_mut or peek_mut, the new value is stored, weight() reflects its new weight, no item is evicted, and items that become weightless or regain weight move out of or into eviction candidacy.", "quantifier": "every key type, value type, hash function (including total collisions), weighter, lifecycle, capacity and finite sequence of API calls starting from a freshly built cache", "why_tests_cant": "All old/new weight combinations in all ring states.", "anchors": ["src/shard.rs: RefMut::drop, cold_change_weight"]}
{"id": "C29", "title": "Over-capacity caused by mutable references is repaired by the next admission", "statement": "From any reachable state, even one over capacity because items were grown or unpinned through a mutable reference, a successful insert/replace/guard insert of an item with non-zero weight brings the evictable weight back to at most capacity(). Insert and a successful replace of an item of weight zero do so as well.", "quantifier": "every key type, value type, hash function (including total collisions), weighter, lifecycle, capacity and finite sequence of API calls starting from a freshly built cache", "why_tests_cant": "Ranges over all over-capacity states.", "anchors": ["src/shard.rs: insert, insert_existing, replace_placeholder"]}
{"id": "C30", "title": "Equivalent keys are interchangeable", "statement": "A lookup with a borrowed query that hashes like k and is equivalent exactly to k returns the same result as the lookup with k.", "quantifier": "every query type and every reachable cache", "why_tests_cant": "Hashing contract over all keys.", "anchors": ["src/shard.rs: search, search_resident", "src/lib.rs: Equivalent"]}
{"id": "C31", "title": "Hash-table layout is irrelevant", "statement": "reserve, growth and rehashing of the hash index, any bucket order and any tag collision never change stored items, weight(), len() or the result of any lookup.", "quantifier": "every key type, value type, hash function (including total collisions), weighter, lifecycle, capacity and finite sequence of API calls starting from a freshly built cache, every bucket order and tag-collision pattern", "why_tests_cant": "Layouts depend on random hasher seeds.", "anchors": ["src/shard.rs: reserve, map_insert, map_remove, search"]}
{"id": "C32", "title": "Reads do not change contents", "statement": "get, peek, contains_key, iter, len and weight leave all stored items, len() and weight() unchanged; peek and contains_key additionally leave the eviction order unchanged.", "quantifier": "every key type, value type, hash function (including total collisions), weighter, lifecycle, capacity and finite sequence of API calls starting from a freshly built cache", "why_tests_cant": "All states.", "anchors": ["src/shard.rs: get, peek, contains"]}
{"id": "C33", "title": "Reference counters saturate", "statement": "However often an item is read without concurrency, its reference counter never exceeds 2, so each item survives at most a bounded number of eviction scans without further reads.", "quantifier": "every key type, value type, hash function (including total collisions), weighter, lifecycle, capacity and finite sequence of API calls starting from a freshly built cache", "why_tests_cant": "All access patterns.", "anchors": ["src/shard.rs: MAX_F, get, get_mut, upsert_placeholder, insert_existing, advance_hot"]}
{"id": "C34", "title": "Eviction takes only unreferenced items", "statement": "Every victim's reference counter is zero at the moment it is evicted; an item of the probation (cold) queue that was read since it was inserted is promoted rather than evicted by the scan that reaches it.", "quantifier": "every key type, value type, hash function (including total collisions), weighter, lifecycle, capacity and finite sequence of API calls starting from a freshly built cache", "why_tests_cant": "All ring states and reference patterns.", "anchors": ["src/shard.rs: advance_cold, advance_hot"]}
{"id": "C35", "title": "Soft replace keeps hotness", "statement": "replace(k, v, soft = true) that fits leaves the item's queue and reference counter unchanged; a hard replace raises the counter by one up to the maximum.", "quantifier": "every key type, value type, hash function (including total collisions), weighter, lifecycle, capacity and finite sequence of API calls starting from a freshly built cache", "why_tests_cant": "All states.", "anchors": ["src/shard.rs: insert_existing, InsertStrategy"]}
{"id": "C36", "title": "Statistics count every lookup once", "statement": "With the stats feature, hits() + misses() increases by exactly one per get/get_mut/placeholder lookup, hits() exactly when a value (or pending placeholder) was found; peek, contains_key, insert and remove never change them. In the concurrent cache, at any moment, hits() is the number of calls that returned an item they found plus the number of times a caller joined somebody else's load, and misses() is the number of lookups that found nothing plus the number of loads begun.", "quantifier": "every key type, value type, hash function (including total collisions), weighter, lifecycle, capacity and finite sequence of API calls starting from a freshly built cache; every interleaving of any number of callers on any number of shards", "why_tests_cant": "All histories.", "anchors": ["src/shard.rs: record_hit, record_miss, get, get_mut, upsert_placeholder", "src/sync.rs: hits, misses"]}
{"id": "C37", "title": "capacity() is constant", "statement": "capacity() always returns the capacity the cache was built with.", "quantifier": "every key type, value type, hash function (including total collisions), weighter, lifecycle, capacity and finite sequence of API calls starting from a freshly built cache", "why_tests_cant": "All histories.", "anchors": ["src/shard.rs: capacity, new"]}
{"id": "C38", "title": "Shard count is a power of two, adjusted to the size", "statement": "num_shards() is a power of two, at most the next power of two of the requested shard count, and unless it is 1 every shard is sized for at least 32 estimated items; it is the largest such halving.", "quantifier": "every requested shard count whose next power of two fits, every items capacity and weight capacity in u64", "why_tests_cant": "Ranges over 2^192 option combinations.", "anchors": ["src/sync.rs: with_options"]}
{"id": "C39", "title": "Sharded capacity covers the request", "statement": "capacity() = num_shards() * shard_capacity() is at least the requested weight capacity and exceeds it by less than num_shards(), except that within num_shards()-1 of u64::MAX it may fall short by less than num_shards().", "quantifier": "every option combination in u64", "why_tests_cant": "Rounding and saturation corner cases.", "anchors": ["src/sync.rs: with_options, capacity, shard_capacity"]}
{"id": "C40", "title": "Shard routing is total and stable", "statement": "For every 64-bit hash the selected shard index is in range, so no lookup of the shard ever fails, and a key is always routed to the same shard.", "quantifier": "every hash value and every power-of-two shard count", "why_tests_cant": "2^64 hashes times all shard counts.", "anchors": ["src/sync.rs: shard_for"]}
{"id": "C41", "title": "Sharding is transparent", "statement": "The sharded cache behaves as one map: an operation on k reads and writes only the shard of k, contents are the disjoint union of the shard contents, len/weight/capacity are the sums, and C01-C05 hold for the whole.", "quantifier": "every key type, value type, hash function (including total collisions), weighter, lifecycle, capacity and finite sequence of API calls starting from a freshly built cache and every shard count", "why_tests_cant": "All histories over all shards.", "anchors": ["src/sync.rs: Cache"]}
{"id": "C42", "title": "Builder validates options", "statement": "build() succeeds exactly when weight_capacity and estimated_items_capacity were set, and returns exactly the set values or the documented defaults.", "quantifier": "every sequence of builder calls", "why_tests_cant": "All call orders.", "anchors": ["src/options.rs: OptionsBuilder"]}
{"id": "C43", "title": "Hot target and ghost capacity computed from fractions stay within bounds", "statement": "For every allocation fraction in [0,1], the hot target derived through 64-bit floating point never exceeds capacity() as long as the capacity is at most 2^53, and the ghost bound never exceeds the estimated items capacity under the same limit. Up to 2^53 both are the exact product of the fraction and the capacity (items capacity), rounded down or up to an integer.", "quantifier": "every fraction and every capacity", "why_tests_cant": "Floating point rounding over 2^64 capacities.", "anchors": ["src/shard.rs: new", "src/options.rs: hot_allocation, ghost_allocation"]}
{"id": "C44", "title": "At most one loader per pending load", "statement": "For every pending load (placeholder) at most one caller holds the right to compute the value at any time: either one guard, or one notified waiter about to receive it, never two.", "quantifier": "every number of threads and tasks, every interleaving of their critical sections, every timeout and cancellation point, and every mix with other cache calls", "why_tests_cant": "Schedules cannot be enumerated by tests.", "anchors": ["src/sync_placeholder.rs: PlaceholderGuard, JoinFuture, join, join_internal"]}
{"id": "C45", "title": "Single flight per key", "statement": "As long as the key is not removed, cleared, or inserted directly meanwhile, no two callers hold guards for the same key at the same time.", "quantifier": "every number of threads and tasks, every interleaving of their critical sections, every timeout and cancellation point, and every mix with other cache calls", "why_tests_cant": "Schedules cannot be enumerated by tests.", "anchors": ["src/sync.rs: get_value_or_guard", "src/shard.rs: upsert_placeholder"]}
{"id": "C46", "title": "No waiter is stranded", "statement": "Whenever a caller is waiting for a pending load, some other caller holds the guard, is completing its insert, or has been notified to take the guard over. A waiter is never left with nobody responsible.", "quantifier": "every number of threads and tasks, every interleaving of their critical sections, every timeout and cancellation point, and every mix with other cache calls", "why_tests_cant": "A lost wakeup needs one specific interleaving.", "anchors": ["src/sync_placeholder.rs: drop_uninserted_slow, drop_pending_waiter, insert_with_lifecycle, join"]}
{"id": "C47", "title": "Waiters receive the inserted value", "statement": "A caller that waited and returns a value returns exactly the value some guard holder inserted for that pending load, and all waiters of one load get the same value.", "quantifier": "every number of threads and tasks, every interleaving of their critical sections, every timeout and cancellation point, and every mix with other cache calls", "why_tests_cant": "Schedules cannot be enumerated by tests.", "anchors": ["src/sync_placeholder.rs: insert_with_lifecycle, join_internal"]}
{"id": "C48", "title": "An abandoned guard is handed over exactly once", "statement": "Dropping a guard without inserting notifies exactly one waiter if there is one (it becomes the new guard holder) and otherwise removes the pending load so that the next caller starts a new one.", "quantifier": "every number of threads and tasks, every interleaving of their critical sections, every timeout and cancellation point, and every mix with other cache calls", "why_tests_cant": "Schedules cannot be enumerated by tests.", "anchors": ["src/sync_placeholder.rs: drop_uninserted_slow", "src/shard.rs: remove_placeholder"]}
{"id": "C49", "title": "Protocol assertions never fail", "statement": "No caller ever observes a terminated pending load, a timed-out or cancelled waiter always finds itself in the waiter list, and no future is polled into an unreachable state.", "quantifier": "every number of threads and tasks, every interleaving of their critical sections, every timeout and cancellation point, and every mix with other cache calls", "why_tests_cant": "unreachable!/unwrap sites need every interleaving.", "anchors": ["src/sync_placeholder.rs: join_internal (unreachable!), join (waiter_idx.unwrap()), drop_pending_waiter (waiter_idx.unwrap())"]}
{"id": "C50", "title": "Timeout and cancellation leave no trace", "statement": "A call that times out, or a future dropped while pending, is not in the waiter list afterwards, and if it had already been notified the notification is either consumed or passed on, never lost.", "quantifier": "every number of threads and tasks, every interleaving of their critical sections, every timeout and cancellation point, and every mix with other cache calls", "why_tests_cant": "Races between notification and timeout/cancellation.", "anchors": ["src/sync_placeholder.rs: join, drop_pending_waiter"]}
{"id": "C51", "title": "Guard insert fails exactly when the load was superseded", "statement": "guard.insert(v) returns Err(v) iff the pending load's entry is no longer in the cache (it was removed, cleared or overwritten), and in that case no stored item changes.", "quantifier": "every number of threads and tasks, every interleaving of their critical sections, every timeout and cancellation point, and every mix with other cache calls", "why_tests_cant": "Requires identity of placeholders across slot reuse in all histories.", "anchors": ["src/sync_placeholder.rs: insert_with_lifecycle", "src/shard.rs: replace_placeholder"]}
{"id": "C52", "title": "Waiting callers always finish", "statement": "If no new calls are started and guard holders eventually insert or drop, every execution is finite and ends with no caller waiting.", "quantifier": "every number of threads and tasks, every interleaving of their critical sections, every timeout and cancellation point, and every mix with other cache calls", "why_tests_cant": "Liveness over all schedules.", "anchors": ["src/sync_placeholder.rs: join, poll, drop_uninserted_slow"]}
{"id": "C53", "title": "Locks cannot deadlock", "statement": "The shard lock, the pending-load lock and the task-waiter lock are always acquired in a fixed order, so no set of callers can block each other forever on locks.", "quantifier": "every number of threads and tasks, every interleaving of their critical sections, every timeout and cancellation point, and every mix with other cache calls", "why_tests_cant": "Deadlocks need a specific schedule.", "anchors": ["src/sync_placeholder.rs", "src/rw_lock.rs", "src/sync.rs"]}
{"id": "C54", "title": "Wakeups reach the most recent waker", "statement": "When a pending future's turn comes, the waker that is woken is the one passed to its most recent poll.", "quantifier": "every number of threads and tasks, every interleaving of their critical sections, every timeout and cancellation point, and every mix with other cache calls", "why_tests_cant": "Race between re-polling with a new waker and notification.", "anchors": ["src/sync_placeholder.rs: poll, Waiter::notify"]}
{"id": "C55", "title": "Concurrent reads are safe and linearizable", "statement": "With any number of concurrent readers racing on reference counters and writers serialized by the shard lock, every structural invariant behind C01-C11 holds in every reachable state and every get returns the value stored at one instant between its call and its return.", "quantifier": "every number of threads and tasks, every interleaving of their critical sections, every timeout and cancellation point, and every mix with other cache calls", "why_tests_cant": "Schedules cannot be enumerated by tests.", "anchors": ["src/sync.rs: get, insert, remove", "src/shard.rs: get (fetch_add), MAX_F"]}
{"id": "C56", "title": "Timed wait respects its bounds", "statement": "get_value_or_guard with a timeout never returns Timeout before the timeout has elapsed, and under an ideal clock its park loop overshoots the timeout by less than a factor of two.", "quantifier": "every timeout and every sequence of spurious wakeups and clock readings", "why_tests_cant": "Depends on arbitrary clock readings.", "anchors": ["src/sync_placeholder.rs: join (park_timeout loop)"]}
{"id": "C57", "title": "Evictions follow the clock policy", "statement": "Every history of the cache (calls, results, before_evict and on_evict calls in order) is a history of an abstract machine without slots, hash index and counters: two circular lists of keys with a hand each, reference counters capped at 2, a bounded queue of ghost hashes. The hot hand passes pinned and referenced items and evicts the first other one; the cold hand skips unreferenced pinned items, promotes a referenced one, evicts an unreferenced one and remembers its hash; an item whose hash is remembered enters the hot list; otherwise it is hot only while the hot list has room. Items and weights of the machine are those of the cache.", "quantifier": "every hash function, weighter, lifecycle and pinning predicate, every size, every finite history of calls, and every layout of the hash table between calls", "why_tests_cant": "The choice of the victim depends on the entire history; tests can compare only a few histories.", "anchors": ["src/shard.rs: advance_cold, advance_hot, insert, upsert_placeholder, replace_placeholder, remove_internal", "src/linked_slab.rs: insert, unlink"]}
{"id": "C58", "title": "Hash function and table layout do not show", "statement": "Two caches of the same size that receive the same calls but use different hash functions, or lay out their hash tables differently, return the same results, make the same lifecycle calls in the same order and hold the same items (drain may yield them in another order), provided that neither hash function maps two of the keys used to one hash.", "quantifier": "every hash function, weighter, lifecycle and pinning predicate, every size, every finite history of calls, and every layout of the hash table between calls; every pair of hash functions without collisions among the keys used", "why_tests_cant": "Relates two unbounded executions.", "anchors": ["src/shard.rs: search, insert, remove, upsert_placeholder", "src/unsync.rs: with (hash builder)"]}
{"id": "C59", "title": "An emptied cache behaves like a new one", "statement": "After clear or drain, whatever happened before, all further calls return what they would return on a new cache of the same size, evict the same items in the same order, and leave the same items (keys used later without hash collisions).", "quantifier": "every hash function, weighter, lifecycle and pinning predicate, every size, every finite history of calls, and every layout of the hash table between calls; every history before and after the call", "why_tests_cant": "Relates two unbounded executions after an arbitrary past.", "anchors": ["src/shard.rs: clear, drain", "src/unsync.rs: clear, drain"]}
{"id": "C60", "title": "Evictions follow the clock policy under concurrency", "statement": "In every interleaving of threads and futures, the critical sections of the cache, in the order in which they happen, act on the abstract clock machine of C57 as prescribed: calls as for a single user; a lookup increments its item's counter exactly if it read less than 2 from it (so concurrent lookups may raise it above 2); a load for which others were waiting when its value was published is stored as used once, any other load as unused; a superseded load changes nothing. The lifecycle calls, results, items and weights are those of the machine.", "quantifier": "every weighter, lifecycle and pinning predicate, every size, every number of agents and every interleaving of their actions, every layout of the hash table", "why_tests_cant": "The choice of a victim depends on the entire interleaved history of all threads.", "anchors": ["src/shard.rs: get, advance_cold, advance_hot, upsert_placeholder, replace_placeholder, remove_placeholder", "src/sync_placeholder.rs: insert_with_lifecycle, drop_uninserted_slow"]}
{"id": "C61", "title": "The crate's own consistency check never fails", "statement": "validate, the check run by the crate's tests and fuzzers (free list, links, recount of items, ghosts and weights against the counters, bounds), returns without a failed assertion in every state: validate(true) of unsync::Cache always, validate(false) if no item was made heavier through a mutable reference, and validate() of sync::Cache at any moment of any concurrent execution; provided that the weights stored add up to less than 2^64. Conversely, a shard that passes has exact counters.", "quantifier": "every weighter, lifecycle and pinning predicate, every size, every history of calls, every number of shards and agents, every interleaving", "why_tests_cant": "The crate's fuzzers run this check on the histories they happen to generate, without concurrency.", "anchors": ["src/linked_slab.rs: validate", "src/shard.rs: validate", "src/unsync.rs: validate", "src/sync.rs: validate"]}
{"id": "C62", "title": "get_or_insert_with and get_or_insert_async return the right value and run the loader at most once", "statement": "A call of get_or_insert_with or get_or_insert_async runs its loader at most once, and not at all if the value is in the cache or comes from another caller's load. It returns the value found, the value received (which another caller inserted for the same key; if that is such a call too, the value its loader returned), or what its own loader returned, value or error. A loader runs only while its key is absent from the cache, unless the key was removed, cleared or inserted since the load began. Two loaders of one key run at the same time only if the key was removed, cleared or inserted since one of the two loads began. No call panics by itself; in particular the unreachable!() for a timeout is not reached. Without new calls there are only finitely many steps, and in the end every call has returned, unless its loader did not or its future was dropped.", "quantifier": "every number of calls, keys, loaders and results, every other use of the shard meanwhile, every interleaving", "why_tests_cant": "Tests run a few callers and a few schedules.", "anchors": ["src/sync.rs: get_or_insert_with", "src/sync.rs: get_or_insert_async", "src/sync_placeholder.rs: PlaceholderGuard::insert, Drop"]}
{"id": "C63", "title": "Cache::new(n) holds at most n items and nothing is evicted before it is full", "statement": "unsync::Cache::new(n) succeeds, and whatever is done with the cache it holds at most n items, its capacity is n and its weight is the number of its items. If n is at least 2, storing an item while there are fewer than n items, or while its key is present, stores it and evicts no other item. If n is 0 or 1 the cache never holds any item. sync::Cache::new(n) succeeds and never holds more than n rounded up to a multiple of the number of shards, and exactly at most n for n up to 62; what a critical section hands out of the lock to be dropped is the last item it evicted.", "quantifier": "every n, every parallelism, every hash function, every history of calls, every interleaving", "why_tests_cant": "Tests try a few sizes; the rounding of the 97 % share and the effect of hash collisions and schedules cannot be enumerated.", "anchors": ["src/unsync.rs: Cache::new, DefaultLifecycle", "src/sync.rs: Cache::new, DefaultLifecycle", "src/lib.rs: UnitWeighter", "src/options.rs: OptionsBuilder::build"]}
{"id": "C64", "title": "Eviction never thins out the cache below the hot target", "statement": "When a call stores an admissible item, victims are chosen one after the other, each while the items present (the new one included) weigh more than the hot target or the capacity, whichever is less; a victim stays exactly if before_evict left it without weight. If every item weighs one, the call either evicts nothing or leaves at least as many items as that bound; a cache built by new(n) keeps more than 96.9 % of n, rounded down. The capacity alone is not a bound: a call may evict more than needed to make room. The same holds for every critical section of the concurrent cache.", "quantifier": "every weighter, lifecycle and pinning predicate, every size, every history of calls, every interleaving", "why_tests_cant": "Tests check that the cache is not too full; that no reachable state makes a call empty it more than necessary is a statement about all histories.", "anchors": ["src/shard.rs: insert, handle_insert_overweight, advance_cold, advance_hot, replace_placeholder"]}
{"id": "C65", "title": "A release build behaves exactly as a debug build", "statement": "Without debug assertions and overflow checks every call does exactly what it does with them: same result, same state, same lifecycle calls, same panic for a full slab. The only assumption is that the items and what the call adds weigh less than 2^64 together; a run of a release build in which this holds is a run of the debug build, and every run of a debug build is one of the release build. So none of the debug assertions hides a wrong case and no unsigned subtraction ever wraps. The critical sections of the concurrent cache do the same in both builds. With weights adding up to 2^64 a debug build panics while a release build goes on with a wrong weight.", "quantifier": "every history of calls, every configuration, every number of loop iterations from the model's bound on, every interleaving", "why_tests_cant": "Tests run in one build mode on a few histories.", "anchors": ["src/shard.rs: all functions", "src/linked_slab.rs: all functions", "src/unsync.rs: all functions"]}
{"id": "C66", "title": "No undefined behaviour, whatever state the cache is in", "statement": "No call and no critical section executes unreachable_unchecked, get_unchecked out of bounds or unwrap_unchecked on None, in a release or a debug build, in any state of the data structure at all: with arbitrary slots, links, heads, counters and index entries, whichever placeholder it is given, and with any hash function, weighter, lifecycle and pinning predicate. In particular leaking a mutable reference, a panic in user code that leaves a state half updated, or an inconsistent weighter can lead to wrong accounting or panics but not to undefined behaviour.", "quantifier": "every state of the shard (no invariant assumed), every call and critical section, every configuration", "why_tests_cant": "Tests reach only states that proper use produces.", "anchors": ["src/shard.rs: advance_cold, advance_hot, replace_placeholder, RefMut::pair, RefMut::value_mut, Drop for RefMut", "src/linked_slab.rs: get_unchecked, get_mut_unchecked"]}
{"id": "C67", "title": "Requests are bracketed by begin_request and end_request", "statement": "A call that stores something and does not fail calls begin_request once, then makes its before_evict and on_evict calls, threading the request state through them, and finally passes that state to end_request, once; its variant insert_with_lifecycle / replace_with_lifecycle / guard insert_with_lifecycle returns exactly that state instead and does not call end_request. The variant makes no other difference. Calls that store nothing (reads, remove, retain, clear, drain, a guard given up, a failed loader) never call the lifecycle. A call that fails calls end_request never and returns no state: in particular a replace rejected for its weight has handed the old item to on_evict, but end_request does not follow. In the concurrent cache the same holds for every critical section in every execution.", "quantifier": "every history, every call, every configuration and lifecycle; every interleaving", "why_tests_cant": "Tests look at a counting lifecycle in a few scenarios; the pairing must hold on every path, including early returns.", "anchors": ["src/unsync.rs: insert, insert_with_lifecycle, replace, replace_with_lifecycle, Guard::insert, Guard::insert_with_lifecycle", "src/sync.rs: insert, replace, insert_with_lifecycle, replace_with_lifecycle", "src/sync_placeholder.rs: PlaceholderGuard::insert, insert_with_lifecycle", "src/lib.rs: Lifecycle"]}
{"id": "C68", "title": "Which locks are held while user code runs", "statement": "Loaders, begin_request, end_request and the hashing of the key asked for run with no lock held: they may call the cache, to any depth, and C53 still holds. No thread is parked with a lock held. Key comparison and the cloning of values found run under the lock of one shard only; the weighter, before_evict, on_evict, is_pinned, ToOwned, the closure of retain, Drop in clear and retain and the rehashing of stored keys run under the write lock of one shard and no other lock, so never for the same shard in two threads. The value given to a guard is cloned with its placeholder's state locked; wakers are cloned and woken with the state or the future's waiter locked, and when a guard is dropped with the shard locked as well. User code that runs with a shard locked and asks for a key of that shard never returns.", "quantifier": "every number of threads, every interleaving, every path through every call, every nesting of calls from user code", "why_tests_cant": "A deadlock from re-entrant user code needs the right callback, key and schedule.", "anchors": ["src/sync.rs: all functions", "src/sync_placeholder.rs: all functions", "src/shard.rs: calls of Weighter, Lifecycle, Hash, Equivalent, ToOwned"]}
{"id": "C69", "title": "Reference counters under concurrent reads", "statement": "get reads an item's reference counter, compares it with the limit 2 and increments it in separate atomic steps under the shard's read lock, so simultaneous readers can push it past the limit. If at most n callers are reading the shard at the same time, and loads of counters read their current values, no counter ever exceeds max(2, n+1), and this is attained. With fewer than 65535 simultaneous readers the 16-bit counter therefore never wraps around: each increment makes it exactly one greater and changes nothing else.", "quantifier": "every interleaving of any number of callers, every configuration", "why_tests_cant": "The overshoot needs all readers to load before any of them increments.", "anchors": ["src/shard.rs: get, Resident::referenced, MAX_F", "src/sync.rs: get"]}
{"id": "C70", "title": "A clone of an unsync cache", "statement": "Cloning an unsync::Cache yields a cache that holds the clones of the values under the same keys, in the same order, with the same queue and reference counter for each, the same number of remembered hashes, the same len, weight, capacity and statistics. If clones of values are indistinguishable from the originals, every history of calls on the clone has exactly the outcome it would have on the original. If clones merely weigh the same, the clone is a correct cache in its own right: its histories are those of a capacity-limited map beginning with the clones, len and weight stay exact, and it panics only when too large. Without that condition the weight of the clone goes wrong: an emptied clone may report a positive weight and evict too early, or remove may overflow.", "quantifier": "every history before the clone, every history after it, every configuration, every Clone implementation of the values", "why_tests_cant": "Internal links and counters must agree in the copy for every state it can be taken in.", "anchors": ["src/unsync.rs: derive(Clone), Clone for SharedPlaceholder", "src/shard.rs: derive(Clone) for CacheShard, Entry, Resident, Placeholder", "src/linked_slab.rs: derive(Clone)"]}
{"id": "C71", "title": "Panics of user code", "statement": "Suppose user code panics during a call on an unsync::Cache, and the panic is caught by the caller. At every call of user code other than those listed below the cache stays intact: its items are unchanged, or as after the completed call, or (insert only) some items were evicted to make room before the new one was stored, or (get_mut_or_insert_with) the loaded value is stored but not yet written to; len and weight are exact, every item is found, and after any mixture of completed and so interrupted calls every further call meets its specification and panics only on overflow of weight or slots. Unwinding itself panics only if the call would have. A guard held when the panic occurs is dropped: no load is pending afterwards that was not before, except after a panic of the loader of get_or_insert_with or get_mut_or_insert_with. At the remaining places (before_evict, the second weight, and the hash of an eviction victim; on_evict of a hot victim; the weight of an item being promoted, removed, replaced, or after a write; weight, is_pinned and before_evict in the admission check of a loaded value; hashing while the table grows) a panic can leave the cache damaged, and on_evict of a hot victim can abort the process.", "quantifier": "every history with any number of interruptions, every call, every point at which it calls user code, every configuration", "why_tests_cant": "A panic has to be injected at each of some forty places in every intermediate state of an eviction.", "anchors": ["src/shard.rs: all calls of Weighter, Lifecycle, BuildHasher, Equivalent, closures", "src/unsync.rs: all methods, Drop for Guard, Drop for RefMut"]}
{"id": "C72", "title": "Hot items survive a flood of new keys", "statement": "Suppose no item is pinned, every cold item is unread (reference counter 0), and the hot items weigh at most B. Then however many items of new keys are inserted one after the other, each leaving room for the hot ones (B at least the hot target, B plus its weight at most the capacity), in any mixture with lookups of hot items, lookups of absent keys, peeks and contains_key, every item that was hot at the beginning stays in the cache with its value, stays hot, its counter does not fall, and no lifecycle call concerns it. The same holds for a flood of loads (get_or_insert_with, guards), with B the whole capacity. Items of different keys inserted into an empty cache are all hot as long as they weigh no more than the hot target; so for Cache::new(n) the first items, up to 96.9 % of n, survive any number of later insertions of new keys. (Provided that hashes of the keys used do not collide.)", "quantifier": "every history before, every flood of any length, every configuration without pinned items", "why_tests_cant": "The flood is unbounded, and any eviction during it could hit a hot item.", "anchors": ["src/shard.rs: insert, handle_insert_overweight, advance_cold, advance_hot, replace_placeholder, get_value_or_placeholder", "src/unsync.rs: insert, get, get_or_insert_with, get_ref_or_guard"]}
{"id": "C73", "title": "Panics of user code in the concurrent cache", "statement": "Suppose user code panics during a call on a sync::Cache with parking_lot locks, and the thread ends or catches the panic. At every call of user code in the waiting protocol other than the two listed below, and at every place that C71 calls safe, the protocol stays intact: the interrupted caller holds no lock, has left or is dropping the guard it had (or, if only its waker could not be renewed, still waits); everybody else is where they were and no notification is lost; no load has been completed or given up and none has become joinable; the items are as C71 says. After any interleaving with any number of such panics, every completed action still is a call of a sequential cache, no assertion fails, every waiting caller has somebody entitled to provide the value, and if user code panics no more everybody finishes. If begin_request panics in guard.insert, the value stays with its load: later get_value_or_guard calls receive it though get does not find the key. Two places break the protocol: a panic of a waker called by guard.insert strands the waiters that were not yet notified (a timed one then panics, the woken future too), and a panic of the value's clone for a waiting future makes dropping that future panic.", "quantifier": "every interleaving of any number of threads and futures with any number of panics, every call of user code, every configuration", "why_tests_cant": "It needs panics injected at each place in the protocol in combination with every interleaving of waiters.", "anchors": ["src/sync_placeholder.rs: join_internal, JoinFuture::poll and drop, PlaceholderGuard::insert_with_lifecycle, drop_uninserted_slow", "src/sync.rs: get, get_value_or_guard, get_value_or_guard_async, insert, replace, remove, peek, retain", "src/shard.rs: all calls of user code"]}
{"id": "C74", "title": "No undefined behaviour whatever user code does", "statement": "Hash, Eq, Equivalent, ToOwned, Weighter, Lifecycle and all closures are safe code and may be wrong: they may return anything, contradict their earlier answers, depend on and change whatever is outside the cache, and panic at any call. Mutable references may be written through any number of times, be dropped by unwinding, or be leaked. No call on the cache then has undefined behaviour, in any state of the cache, in particular not in one left behind by earlier panics or wrong answers; neither have the critical sections of the concurrent cache and the destructors of guards. Safety is all that is left: if is_pinned starts to answer yes while the hot items are being searched for a victim, insert may run for ever.", "quantifier": "every behaviour of user code (any function of an arbitrary world), every state of the cache, every call", "why_tests_cant": "User code can misbehave at any of dozens of calls in any combination, on states that themselves only arise from earlier misbehaviour; undefined behaviour need not show in a test.", "anchors": ["src/shard.rs: all functions; the unsafe blocks at 458-473, 656-662, 713-716, 874-882, 1081-1106", "src/linked_slab.rs: get_unchecked, get_mut_unchecked", "src/unsync.rs", "src/sync_placeholder.rs: PlaceholderGuard"]}
{"id": "C75", "title": "The lifecycle may change its mind between calls", "statement": "Let is_pinned and the other lifecycle functions depend on state that changes between calls (a reference count, a flag), each call seeing one state. Then lookups still return the value last stored, len, weight and iteration stay exact, every call returns unless the cache is too large, evictions follow the clock policy, and in the concurrent cache one caller per load is entitled to insert, waiters are not forgotten and everybody makes progress. What counts is the answer at the time of the call: an item pinned then is not evicted, and after an admitted item with weight is stored the items not pinned then fit the capacity, so room taken by items that are no longer pinned is given back by the next insert.", "quantifier": "every history and interleaving, every sequence of lifecycles, one per call (action)", "why_tests_cant": "Tests fix one pinning rule or a few changes of it; the number of ways in which pins can come and go along a history is unlimited.", "anchors": ["src/lib.rs: Lifecycle", "src/shard.rs: advance_hot, advance_cold, insert, handle_insert_overweight", "src/sync.rs", "src/sync_placeholder.rs"]}
{"id": "C76", "title": "No lost wake-up between the accesses of notifiers and waiters", "statement": "guard.insert and dropping a guard set the waiters' flags one by one, and unpark or wake each, while they hold the state lock of the load; waiting threads loop around park and futures are polled in between, and may notice their flags before the notifier is done. However these accesses interleave, with stray tokens and spurious returns of park, the execution is one in which notifying is a single action, so that everything said about those holds. A thread that sleeps or is about to, though its flag is set, has its token or is about to be unparked; a thread that is blocked and not about to be unparked was not notified, is listed as a waiter, and somebody else is entitled to provide the value. The waker that is called is that of the latest poll, and the future is not polled between its flag being set and its waker being called. Apart from one-section calls, polls without notification and disturbances of park, the number of actions is bounded; as long as somebody is not done, something due can be done; when nothing can, everybody is done and no lock is held.", "quantifier": "every interleaving of single accesses of any number of threads and futures, every configuration, any number of stray tokens and spurious returns", "why_tests_cant": "Lost wake-ups need a particular order of accesses within a few instructions, and the window between setting a flag and unparking can hardly be hit on purpose.", "anchors": ["src/sync_placeholder.rs: Waiter::notify, TaskWaiter, join, JoinFuture::poll, insert_with_lifecycle, drop_uninserted_slow"]}
{"id": "C77", "title": "Eviction does a constant amount of work per call on average", "statement": "Count the items that eviction looks at (for each it calls is_pinned once, or weight if it promotes the item). If no item is pinned, then over any history this number is at most three for every item in the cache at the start plus, for the calls of the history, three for each call that stores or changes a value, one for each other lookup or load and nothing for the rest. So from a new cache on it is at most three per call on average, whatever the capacity, the weights and the order of calls; a single call looks at no more than three times the number of items plus three, which is reached. With pinned items there is no such bound: every insert may go through all of them again.", "quantifier": "every history, every configuration without pinned items", "why_tests_cant": "Tests and benchmarks measure the work of some workloads; the average over the worst sequence of lookups, weights and evictions of any length is out of reach.", "anchors": ["src/shard.rs: advance_cold, advance_hot, insert, insert_existing, replace_placeholder, RefMut"]}
{"id": "C78", "title": "With the locks of std a panic of user code either harms nobody, or makes the shard unusable, or aborts the process", "statement": "Without the feature parking_lot the cache uses the locks of std, which are poisoned by a panic under a write lock. As long as user code does not panic inside the cache nothing is poisoned, whatever panics outside. A panic of user code inside the cache has one of three effects, by its place. Under the write lock of the shard it poisons the shard: the shard never changes again, every call on it panics at once, a notified thread panics instead of receiving its value, a waiting thread without timeout waits for ever unless somebody already has the guard, and dropping a guard panics, or aborts the process if a panic drops it. While guard.insert clones the value or wakes a future, while a waiting future renews its waker, or while a value is cloned for a waiting future, it leads to a second panic during the unwinding that nothing can avert, so that the process is aborted. Anywhere else (hashing, begin_request, end_request, clone under the read lock) it poisons nothing, and the cache goes on as with parking_lot: calls keep their meaning, none panics because of a lock, and somebody can always go on.", "quantifier": "every interleaving of any number of callers, every sequence of panics inside and outside the cache, every configuration", "why_tests_cant": "Tests do not make user code panic at chosen places under the locks, cannot go on after an abort, and cannot observe that somebody waits for ever.", "anchors": ["src/rw_lock.rs: read, write", "src/sync_placeholder.rs: PlaceholderGuard, JoinFuture, Waiter::notify", "src/sync.rs: get_value_or_guard, get_value_or_guard_async"]}
{"id": "C79", "title": "The protocol does not rely on sequentially consistent memory", "statement": "Two kinds of memory are read while somebody else may be writing to them: the notification flag of a waiting thread, and the reference counter of an item under the shard's read lock. A lookup may read any earlier value of a counter: it returns the same value and leaves the same contents. A waiting thread may fail to see that its flag was set, as often as it likes, until it takes its token after its notifier has unparked it (which is what the documentation of thread::park promises). Still no wake-up is lost: a thread whose flag is set has its token, or will get it from its notifier, or is bound to see the flag when it reads it next, or is about to look again with the state locked. A thread that was notified never reports a timeout. Everything proved about concurrent executions (except the bound of C69) holds for executions with such reads.", "quantifier": "every interleaving of any number of callers at the granularity of single accesses, every choice of earlier values read, every configuration", "why_tests_cant": "The hardware tests run on, or the scheduler of a test tool, may never let a load read an earlier value; shuttle and the tests assume sequential consistency.", "anchors": ["src/sync_placeholder.rs: Waiter::notify, PlaceholderGuard::join", "src/shard.rs: get"]}
{"id": "C80", "title": "Calls that visit all shards", "statement": "is_empty, len, weight, capacity, hits, misses, retain, clear and reserve of the concurrent cache lock the shards one after the other, while other threads go on. len() returns the sum of the numbers of items the shards had at moments during the call, in order (so does weight() for the weights); if nothing is pinned, weight() is at most the capacity even so. is_empty() returning true means that each shard was empty at some moment during the call; false, that the cache was not empty at some moment. hits() and misses() return numbers between those of the beginning and of the end of the call; capacity() returns a constant. A visit of a shard removes from it exactly the items it is meant to remove: those that do not satisfy f for retain(f), all for clear(), none for the others. When clear() returns, an item that is in the cache was stored during the call. When retain(f) returns, an item that is in the cache satisfies f, unless it was stored or written to, or the lifecycle was asked about it, during the call. None of them panics, except weight() if what it sees weighs 2^64 or more; none waits for anything but the lock of the next shard, and none visits more than all shards.", "quantifier": "every configuration, every number of shards, any number of threads making any calls, including several of these, in every interleaving", "why_tests_cant": "What such a call sees depends on what happens between its visits; tests see a few interleavings of a few calls.", "anchors": ["src/sync.rs: is_empty, len, weight, capacity, misses, hits, reserve, retain, clear"]}
{"id": "C81", "title": "Loaders that use the cache", "statement": "A caller that has the guard of a key (in particular the closure or future passed to get_or_insert_with or get_or_insert_async) may call the cache again before it uses the guard. Consider threads, and futures that await one thing after the other, each of which may do so. Unless some of them wait for each other in a circle (each waits for a load whose guard the next one has), somebody can always go on; if nobody can, all that are in a call or have a guard are in such a situation. A circle is for ever: those in it can do nothing, and each goes on waiting for the same one, whatever the others do, unless a timeout runs out or a future is dropped. A caller that has the guard of a key and asks for that key again (other than with get) does not get an answer, unless somebody removes, clears or inserts that key. If callers that have guards ask only for keys that are greater, in some fixed order, than those they have guards of, or make no calls but get and others that do not wait, there is never a circle.", "quantifier": "every configuration, every number of shards, any number of threads and futures making any calls, nested to any depth, in every interleaving", "why_tests_cant": "Whether a circle forms depends on the interleaving of several loaders; that nothing can ever resolve one is about all continuations.", "anchors": ["src/sync.rs: get_or_insert_with, get_or_insert_async, get_value_or_guard, get_value_or_guard_async", "src/sync_placeholder.rs: PlaceholderGuard::join, JoinFuture"]}
{"id": "C82", "title": "Cold items leave in the order in which they came", "statement": "Suppose nothing is pinned and every item has weight. If an item is cold and has not been looked up when another one is not cold yet, and nobody uses the first one from then on, then the second one, once it is cold and not used any more (nor removed by retain, clear or drain), stays at least as long as the first one does, unchanged. Inserting items of different keys one after the other into an empty cache of n items of weight one, of which h may be hot (h is 97 % of n for Cache::new(n)), leaves exactly the first h and the last n - h of them; the first n insertions evict nothing, and each later one evicts exactly one item: those that are not among the first h, in the order of insertion.", "quantifier": "every configuration without pins and weightless items, every history before, in between and after; for the second part every list of keys with different hashes, of any length, and every n and 1 <= h < n", "why_tests_cant": "The order holds for any two items and any calls on other keys in between, including those that rewrite, remove and promote items; tests look at a few traces.", "anchors": ["src/shard.rs: advance_cold, insert_existing, handle_insert", "src/linked_slab.rs: link, unlink"]}
{"id": "C83", "title": "The fuzz target of the single-threaded cache never fails", "statement": "The program fuzz/fuzz_targets/fuzz_unsync_cache.rs, which performs arbitrary operations (insert, update through get_mut, replace, guard with or without a value, remove) with pinned and unpinned values, some of which give up their weight when they are about to be evicted, and asserts after each that evicted items are evictable, different, in particular not the one just stored unless it was rejected, and that lookups find what was stored, ends without a failed assertion and without a panic.", "quantifier": "every input with fewer than 2^31 - 2 operations, every hash function, every order in which the hash table visits its buckets", "why_tests_cant": "A fuzzer tries some inputs; the claim is about all of them.", "anchors": ["fuzz/fuzz_targets/fuzz_unsync_cache.rs", "src/unsync.rs", "src/shard.rs"]}
{"id": "C84", "title": "The fuzz target of the slab never fails", "statement": "The program fuzz/fuzz_targets/fuzz_linked_slab.rs, which adds, removes, links and unlinks items of three circular lists in a linked slab, asserts that each operation returns the token a model made of search trees predicts, and compares at the end every list, the unlinked items and the number of items with that model, ends without a failed assertion and without a panic.", "quantifier": "every list of operations", "why_tests_cant": "A fuzzer tries some inputs; the claim is about all of them.", "anchors": ["fuzz/fuzz_targets/fuzz_linked_slab.rs", "src/linked_slab.rs"]}
{"id": "C85", "title": "The fuzz target of the concurrent cache never fails", "statement": "The program fuzz/fuzz_targets/fuzz_sync_cache.rs, in which one thread performs arbitrary operations (insert, replace, get_value_or_guard with a timeout of zero, insertion through a guard it kept, remove) with pinned and unpinned values, some of which give up their weight when they are about to be evicted, keeps several guards at once, and asserts that evicted items were evictable and different, that lookups find what was stored or nothing, and that a call times out only for a key whose guard the thread itself has, ends without a failed assertion, without a panic and without waiting for ever; validate accepts the cache at the end, and dropping the guards that are left succeeds.", "quantifier": "every input with fewer than 2^31 - 2 operations, every hash function, every order in which the hash table visits its buckets, every order in which the remaining guards are dropped", "why_tests_cant": "A fuzzer tries some inputs; the claim is about all of them.", "anchors": ["fuzz/fuzz_targets/fuzz_sync_cache.rs", "src/sync.rs", "src/sync_placeholder.rs", "src/shard.rs"]}
{"id": "C86", "title": "The crate's thundering-herd tests pass in every interleaving", "statement": "In test_get_or_insert, test_value_or_guard and their async versions (src/lib.rs), any number of threads (with or without a timeout) and tasks ask one new cache for one key at once; the holder of a guard that finds exactly solve_at earlier guards inserts the value, the others drop theirs; callers whose call timed out or whose future was dropped ask again. No assertion fails: every value returned is the inserted one, guard.insert succeeds, nothing panics. There are never more than solve_at + 1 guards; when all callers are done there were exactly solve_at + 1 and the cache has the value. As long as somebody is not done somebody can go on without a timeout, only boundedly many steps are left without further timeouts, so the test can be completed from every state.", "quantifier": "all numbers of callers, all solve_at, all interleavings of all steps, all moments of timeouts and cancellations, all weights and capacities for which the value fits, fewer than 2^32 - 2 calls", "why_tests_cant": "The tests themselves run some thousand interleavings with one hundred callers each; the claim covers all interleavings and numbers.", "anchors": ["src/lib.rs", "src/sync.rs", "src/sync_placeholder.rs"]}
{"id": "C87", "title": "The randomised guard test passes in every interleaving", "statement": "In test_guard_works (src/shuttle_tests.rs), threads and tasks ask one new cache for one key until they get the value 1; holders of guards insert 1 if enough guards were given out before and drop the guard otherwise; callers whose call timed out or whose future is about to be dropped may insert the value 0, callers that got another value may remove the key. When all callers have left the loop the cache has the value 1. No step fails unless the cache gets too large, and as long as somebody is not done somebody can go on.", "quantifier": "all numbers of callers, all interleavings, all outcomes of the random choices, every rule by which guard holders decide to insert, all weights and capacities", "why_tests_cant": "shuttle explores random schedules; the claim covers all of them.", "anchors": ["src/shuttle_tests.rs", "src/sync.rs", "src/sync_placeholder.rs"]}
{"id": "C88", "title": "A cache with room is a dictionary", "statement": "As long as everything that is stored fits next to what is already there (and no single item is too heavy to be cached), the single-threaded cache behaves as a plain key-value dictionary: every call returns what it returns on a dictionary without a capacity, nothing is evicted, the lifecycle hears of nothing but overwritten values, and the items are those of the dictionary. Cache::new(n) with n >= 2 is a dictionary as long as the dictionary never has more than n keys. Calls do not panic while the weights stay in the range of u64.", "quantifier": "all histories of calls, all capacities, weighters, lifecycles, hash functions and hash-table layouts for which the items fit", "why_tests_cant": "Tests compare a few calls with expected results; the claim covers all histories and all hash functions.", "anchors": ["src/unsync.rs", "src/shard.rs"]}
{"id": "C89", "title": "The unit tests of the single-threaded cache pass for every hash function", "statement": "test_change_get_mut_change_weight, test_equivalent, test_get_or_insert_unsync, test_retain_unsync (src/lib.rs) and test_zero_weights (src/unsync.rs) pass: no assertion fails and nothing panics, whatever the random state of the hasher, the layout of the hash table and available_parallelism() are (for test_zero_weights: if the hashes of its hundred keys differ).", "quantifier": "all hash functions (for test_zero_weights: injective on its keys), all layouts of the hash table, all numbers of processors", "why_tests_cant": "A run of the test uses one random hash state on one machine.", "anchors": ["src/lib.rs", "src/unsync.rs", "src/shard.rs"]}
{"id": "C90", "title": "A concurrent cache with room is a dictionary", "statement": "Whatever any number of threads and tasks do with the concurrent cache: as long as a shard has room for what is stored in it, that shard behaves as a plain dictionary on which the calls happen one after the other. Every call returns what it returns on the dictionary, nothing is evicted, the lifecycle hears of nothing but overwritten values, and the items are those of the dictionary. For sync::Cache::new(n) with n >= 2 it suffices that no more different keys are used than shard_capacity().", "quantifier": "all interleavings of any number of threads and tasks, all calls including loads through guards, all options, weighters, lifecycles and hash functions for which the items fit", "why_tests_cant": "Tests cannot enumerate interleavings, and eviction under races depends on timing; the claim says there is none.", "anchors": ["src/sync.rs", "src/sync_placeholder.rs", "src/shard.rs"]}
{"id": "C91", "title": "Used by one caller at a time, the concurrent cache is the single-threaded one", "statement": "A program that makes one call of sync::Cache at a time (a single thread, or callers behind a mutex) sees what it would see with unsync::Cache: every call returns, with the same result, evicting the same items in the same order, and the two caches always contain the same items, provided that no two keys have the same hash. The loading calls (get_or_insert_with, get_value_or_guard, their async versions) correspond to get_ref_or_guard followed by the insertion, or by dropping the guard if the load fails. No call waits for ever, and none panics unless the cache is too large: its weight does not fit into u64, or it runs out of slots. The shard alone is considered (one shard).", "quantifier": "all sequences of calls, all loaders (threads with and without timeouts, tasks), all load results, all layouts of the hash table after each step, all configurations", "why_tests_cant": "The two caches share the shard but reach it through different code: optimistic lookup under the read lock and waiting protocol on one side, direct calls on the other. Equality for all sequences of calls cannot be sampled.", "anchors": ["src/sync.rs", "src/unsync.rs", "src/sync_placeholder.rs", "src/shard.rs"]}
{"id": "C92", "title": "A sharded cache with room, used by one caller at a time, is a single dictionary", "statement": "A program that makes one call of sync::Cache at a time, on a cache with any number of shards, sees one plain dictionary without a capacity, as long as each shard has room for what is stored in it: every call returns without a panic and without waiting for ever, with the result it has on the dictionary; nothing is evicted; retain and clear, which visit the shards one after the other, act on all items; the items of the cache are those of the dictionary. For sync::Cache::new(n) with n >= 2 it suffices that no more different keys are used than shard_capacity().", "quantifier": "all programs of fewer than about 2^32/13 calls, all options and numbers of shards, all hash functions including constant ones, all layouts of the hash tables, all weighters and lifecycles", "why_tests_cant": "Which keys share a shard depends on the hash function, which is random in practice; a test sees one distribution.", "anchors": ["src/sync.rs", "src/sync_placeholder.rs", "src/shard.rs"]}
{"id": "C93", "title": "The crate's unit tests of sync::Cache pass on every machine", "statement": "The unit tests test_new, test_custom_cost, test_borrow_keys, test_get_or_insert_sync and test_retain_sync of the crate never fail: whatever the hash function (std's is random), the layout of the hash tables and the number of processors, on which the number of shards depends (up to 2^61), no assertion fails, no unwrap panics, no panic!() is reached and no call waits for ever.", "quantifier": "all hash functions, all layouts of the hash tables, all numbers of processors up to 2^61", "why_tests_cant": "A run of the test uses one seed of the hash function on one machine.", "anchors": ["src/lib.rs:198-219", "src/lib.rs:274-280", "src/lib.rs:333-371", "src/lib.rs:407-443"]}
{"id": "C94", "title": "What comes out of the cache was put in for that key", "statement": "Take any relation between keys and values, such as \"this value was computed for this key\". If it holds of everything that callers put in (inserted, replaced, loaded, inserted through a guard, written through a mutable reference) and survives the lifecycle's before_evict, then it holds of every value that any call returns for a key, of every pair handed back by remove, replace or drain, of everything that the lifecycle's callbacks are given, of the values received from other callers' loads, and of all items in the cache.", "quantifier": "all relations, all sequences of calls of the single-threaded cache; for sync::Cache all numbers of shards, all numbers of callers and all interleavings; all hash functions including constant ones, all weighters and lifecycles", "why_tests_cant": "A mix-up of values between keys needs a rare interleaving or a collision of hashes; a test sees few of them.", "anchors": ["src/shard.rs", "src/unsync.rs", "src/sync.rs", "src/sync_placeholder.rs"]}
{"id": "C95", "title": "test_multiple_threads passes in every interleaving", "statement": "The crate's test in which 8 threads insert numbers as their own values, a thousand times each of a thousand numbers, into a cache too small for them, while 8 other threads look these numbers up and assert that what they find is the number: no assertion fails, nothing panics in the cache, no thread waits for ever, and the test ends after a bounded number of steps.", "quantifier": "all interleavings, all hash functions, all layouts of the hash tables, all numbers of processors up to 2^61; all numbers of pairs of threads, rounds and items with fewer than 2^32 - 2 insertions in all", "why_tests_cant": "A run of the test sees one interleaving out of a vast number.", "anchors": ["src/sync.rs:482-528"]}
{"id": "C96", "title": "Every item put into the cache leaves it exactly once or is still in it", "statement": "Count an item as put in when it is inserted, replaced, loaded, inserted through a guard, or when a mutable reference or before_evict rewrites a value; count it as taken out when remove, replace or drain returns it, when on_evict is given it, or when its value is rewritten. As long as retain and clear are not called, the items in the cache together with those taken out are exactly those put in, each as often. With retain and clear some are dropped silently, but still none is taken out twice, none is taken out and also still there, and none appears from nowhere. In particular, if threads only insert and look up, and before_evict leaves values alone, then an eviction listener (as in examples/eviction_listener.rs) is told of each inserted item exactly once, except for those still in the cache.", "quantifier": "all sequences of calls of the single-threaded cache; for sync::Cache all numbers of shards, all numbers of callers and all interleavings; all capacities, hash functions, weighters and lifecycles", "why_tests_cant": "An item reported twice, or lost without a report, needs a particular order of evictions, overwrites and refusals.", "anchors": ["src/shard.rs", "src/unsync.rs", "src/sync.rs", "src/sync_placeholder.rs", "examples/eviction_listener.rs"]}
{"id": "C97", "title": "What an eviction listener hears when threads insert different keys", "statement": "Any number of threads insert items of different keys (with different hashes) into a sync::Cache with UnitWeighter and a lifecycle that only listens to evictions. Of the items that came to a shard, it then holds the first ones, as many as may be hot (97 % of its capacity for Cache::new and Cache::with), and the last ones up to its capacity; the listener was told of all others, in the order in which they were inserted. For examples/eviction_listener.rs this means: each of the 110 numbers was printed once or is still in the cache, and the printed ones of each shard come in increasing order.", "quantifier": "all interleavings, all numbers of threads, shards and items, all capacities, all hash functions without collisions among the keys used, all layouts of the hash tables", "why_tests_cant": "The example prints what one run on one machine with one hash function yields.", "anchors": ["examples/eviction_listener.rs", "src/shard.rs", "src/sync.rs"]}
{"id": "C98", "title": "A shared cache lasts for at least 2^32 - 2 insertions and loads per shard", "statement": "However many threads use a sync::Cache, no shard ever takes more slots, and so no shard holds more items, than there were calls of insert and replace and reservations by lookups with a loader or guard on it. A call therefore fails for want of a slot only after 2^32 - 2 of these on one shard, and if no item weighs more than 2^32, then before that nothing panics in the cache at all. Reading, removing, storing a loaded value, dropping a guard, retain and reserve never bring that end nearer. The bound is exact: whatever the options, after 2^32 - 2 lookups of one key whose guards were dropped the next one panics, although the cache is empty. Only what was done since the shard was last cleared counts.", "quantifier": "all interleavings, all numbers of threads and shards, all options, keys, values, hash functions, weighters bounded by 2^32 (for the last part), lifecycles, all layouts of the hash tables", "why_tests_cant": "No test makes four billion insertions in every order, or tries every call after each of them.", "anchors": ["src/linked_slab.rs", "src/shard.rs", "src/sync.rs"]}
{"id": "C99", "title": "What a shared cache remembers is bounded, except for loads given up", "statement": "However many threads use a sync::Cache, the slots in use of each shard are exactly those of its items, of the remembered hashes of evicted items, and of placeholders. The remembered hashes of a shard are at most its share of the estimated number of items times the ghost allocation, rounded up. The placeholders are at most as many as there were reservations (by lookups with a loader or guard) not used to store a loaded value. So if every reservation is used, no slot is wasted. That last condition is needed: each dropped guard leaves a slot behind, also in the shared cache, whatever the options and the key, so that an empty cache may have any number of slots in use. Only what was done since the shard was last cleared counts.", "quantifier": "all interleavings, all numbers of threads and shards, all options, keys, values, hash functions, weighters, lifecycles, all layouts of the hash tables", "why_tests_cant": "The slots are not visible through the API, and a leak shows only after long use under particular interleavings of loads, insertions and removals of the same key.", "anchors": ["src/linked_slab.rs", "src/shard.rs:176-186", "src/sync_placeholder.rs"]}
