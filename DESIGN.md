# Formal model of cortexdb (liliang-cn/sqvect)

Source under study: the Go module in `/repo`, read as text. Nothing is built or run.
Model and proofs: Lean 4.33.0 with Mathlib, in `lean/Verif`.

## Layout

| Directory | Content |
|---|---|
| `lean/Verif/Base` | Go primitives shared by several areas: sorts, maps, loops, locks |
| `lean/Verif/Model` | the model, one file per source area, every definition cites `/repo` file and lines |
| `lean/Verif/Spec` | small specifications, written without the model's helpers |
| `lean/Verif/Thm` | the property theorems, each with a non-vacuity `example` |

Property theorems are named `Cnn_...`. A theorem whose name ends in `_partial` proves the claim under a stated
guard. A theorem whose name ends in `_violated` proves that the code as written breaks the full claim, by a concrete
reachable witness. The witnesses do not count as proofs of the property; they justify the guard.

## Trusted base

* Lean's kernel, and the axioms `propext`, `Classical.choice` and `Quot.sound` where a theorem uses them. No other axiom.
* The reading of the Go source into the model. It was done by hand, function by function.
* SQLite (through modernc.org/sqlite) executes each statement as its SQL says, transactions are atomic and durable, and
  `INSERT OR REPLACE` does not fire delete triggers when `recursive_triggers` is off. SQL text is modelled by the relation it denotes.
* `encoding/json` round-trips string maps and 32-bit floats (Go prints the shortest decimal that reads back).
* Go's `sort.Slice` returns some sorted permutation. It is modelled as an arbitrary one, so tie orders are universally quantified.
* Go map iteration visits each key once in an arbitrary order. Orders are universally quantified or passed as a parameter.

## Simplifications that hold everywhere

* Scores and distances are elements of an abstract linear order, or rationals where arithmetic matters. Float rounding and NaN are not modelled.
  Similarity functions are parameters.
* Strings are Lean `String` or an abstract identifier type. Where byte length matters it is a parameter.
* Context cancellation, logging and timestamps' wall-clock values are not modelled unless a property is about them.


## Axioms of each theorem

Read off with `#print axioms` for every theorem named in `MANIFEST.json` (1222 theorems). In the tables below **p** is
`propext`, **c** is `Classical.choice`, **q** is `Quot.sound`; a dash means that the theorem depends on no axiom. No theorem depends on
anything else, in particular not on `sorryAx`, `Lean.ofReduceBool` or `Lean.trustCompiler`.

| Axioms | Theorems |
|---|---|
| `Classical.choice`, `Quot.sound`, `propext` | 943 |
| `Quot.sound`, `propext` | 210 |
| `propext` | 61 |
| none | 7 |
| `Quot.sound` | 1 |

## Properties

257 properties, 68 proved as stated, 189 partial, 0 not applicable. For each: the plan or what is modelled,
then the theorems with the axioms they use. "violated" theorems prove that the code as written breaks the full statement; the
"partial" ones beside them prove it under the guard that their statement names.

### C01 — Stored vectors decode to exactly what was encoded

Status: **proved**. Modelled as: list of 32-bit words to bytes, little endian, int32 length. Proof: round trip by induction on the vector.
Proofs in `Thm/Codec.lean`.

| Theorem | Axioms | Says |
|---|---|---|
| `Thm.Codec.C01_roundtrip` | pq | C01: every vector that fits the format is restored exactly, whatever bytes follow the blob. |
| `Thm.Codec.C01_refused` | p | C01: a nil vector and an oversized vector are refused. |
| `Thm.Codec.C01_injective` | pq | C01: two different vectors never share a blob. |

### C02 — Decoding untrusted bytes is total and exact

Status: **proved**. Modelled as: decoder on arbitrary byte lists with explicit errors. Proof: case analysis plus the inverse round trip.
Proofs in `Thm/Codec.lean`.

| Theorem | Axioms | Says |
|---|---|---|
| `Thm.Codec.C02_accepts_iff` | pcq | C02: decoding accepts exactly the byte strings with a non-negative length header and enough bytes. Anything else is an error of the codec (never a short read). What is accepted has the declared length. |
| `Thm.Codec.C02_exact` | pcq | C02: an accepted blob has the declared number of components, and encoding the result gives back exactly the bytes that were consumed. |
| `Thm.Codec.C02_rejects` | pcq | C02: every rejection is reported as the invalid-vector error; the decoder never runs out of bytes midway. |

### C03 — A store behaves as a map from id to the last successful write

Status: **proved**. Modelled as: store state machine (tables as lists, step function). Proof: refinement to an abstract finite map, induction over histories.
Proofs in `Thm/StoreProps.lean`.

| Theorem | Axioms | Says |
|---|---|---|
| `Thm.StoreProps.C03_last_write` | pcq | C03, soundness: whatever `GetByID` answers is the last successful write to that id in the history. |
| `Thm.StoreProps.C03_kept` | pcq | C03, completeness: a successful write stays visible as long as no later call writes that id or asks for the removal of that record. In particular calls about other ids never change it. |
| `Thm.StoreProps.C03_error_is_not_found` | p | C03: on an open store the only error `GetByID` gives is not-found. |
| `Thm.StoreProps.C03_removed` | pcq | C03: a successful call that asks for the removal of a record removes it. A blank id in a bulk delete is ignored by the code, a record whose collection row is missing shows the empty collection name, and deleting a document removes chunks only through an enforced cascade (see C17); these three are excluded here. |

### C04 — A failed batch upsert changes nothing

Status: **proved**. Modelled as: batch as a fold over a transaction copy. Proof: commit or roll back, induction over the batch.
Proofs in `Thm/StoreProps.lean`.

| Theorem | Axioms | Says |
|---|---|---|
| `Thm.StoreProps.C04_all_or_nothing` | pcq | C04: a batch upsert that reports an error changes neither rows, nor the other tables, nor the indexes; one that reports success has stored every record of the batch (of several with the same id, the last) and touched no other id. |
| `Thm.StoreProps.C04_rejected_anywhere` | pcq | C04: a record that is rejected anywhere in the batch (no vector, unknown collection, unknown document under enforced foreign keys) or a storage failure at any position, the commit included, leaves everything as it was. |

### C05 — Delete removes exactly one record and reports absence

Status: **partial**. Modelled as: delete step with both indexes. Proof: invariant plus not-found equivalence; index part from the index models.
Holds for every non-empty id; Upsert accepts the empty id and Delete refuses it (C05_empty_id_violated).
Proofs in `Thm/Any2.lean`, `Thm/Search.lean`, `Thm/StoreProps.lean`, `Thm/Wider.lean`.

| Theorem | Axioms | Says |
|---|---|---|
| `Model.Store.C05_any_empty_id_violated` | pcq | Whatever a store holds, the record with the empty id cannot be deleted by its id: `Delete` refuses and nothing changes. |
| `Thm.Search.C05_search_stored` | pcq | C05: search, on any path and whatever the index proposes, returns only ids that are stored; so a deleted id is not found until it is written again. |
| `Thm.Search.C05_search_deleted` | pcq | C05: right after a successful delete no search on any path returns the id. |
| `Thm.StoreProps.C05_reports_absence` | pcq | C05: deleting a non-empty id on an open store with a working storage layer succeeds exactly when the id is stored. |
| `Thm.StoreProps.C05_removes_exactly` | pcq | C05: a successful delete removes that record and no other, and leaves collections and documents alone. |
| `Thm.StoreProps.C05_failed_unchanged` | pcq | C05: a delete that fails changes nothing at all. |
| `Thm.StoreProps.C05_stays_deleted` | pcq | C05, after a delete: the id stays unknown to lookups until some later call writes it again. |
| `Thm.StoreProps.C05_empty_id_violated` | pcq | C05 fails for the empty id: `Upsert` stores it, `Delete` refuses it. |
| `Thm.StoreProps.C05_never_deleted_violated` | pcq | C05: in every store and for every outcome of the disk, the record with the empty id cannot be deleted. |

### C06 — A failed bulk delete changes nothing

Status: **partial**. Modelled as: chunked delete with a fault oracle. Proof: violated by a two-chunk witness; partial when no chunk fails.
Without a storage failure exact; a failure after the first 500 ids leaves the earlier chunks deleted (C06_violated).
Proofs in `Thm/Any3.lean`, `Thm/StoreProps.lean`.

| Theorem | Axioms | Says |
|---|---|---|
| `Thm.StoreProps.C06_any_violated` | pcq | C06 is violated in every open store by every deletion of more than 500 ids whose `k`-th statement fails, `k ≥ 1`: the error is reported, but exactly the first `500 * k` ids that are not blank are gone, and every other record stays. |
| `Thm.StoreProps.C06_removes_exactly` | pcq | C06: without a storage failure a bulk delete removes exactly the listed (non-blank) ids, reports not-found exactly when the list names some id but none is stored, and success otherwise. |
| `Thm.StoreProps.C06_failed_unchanged_partial` | pcq | C06, part: a bulk delete of at most 500 (non-blank) ids that fails has removed nothing. Missing for the full claim: longer lists, see `C06_violated`. |
| `Thm.StoreProps.C06_violated` | pcq | C06 is violated: 501 ids make two statements; when the second fails the error is reported but the first is done. |

### C07 — Delete-by-filter removes exactly the records the filter matches

Status: **partial**. Modelled as: filter tree to SQL text and SQL semantics. Proof: violated (NOT dropped under AND); partial for trees without NOT and REGEX.
C07_selected_partial says exactly which records are removed, for every filter and all metadata; it agrees with the usual reading for filters without NOT whose comparisons SQL expresses (C07_exact_partial). Violations: NOT IN inside AND is dropped and deletes the excluded records, numeric equality never matches, NotEqual with a number removes every record that has the field, order against a word (a date) removes all or none, one record without metadata makes every deletion fail, dotted names, texts in ordered fields, IN and BETWEEN without a list panic.
Proofs in `Thm/Any5.lean`, `Thm/Filter.lean`, `Thm/FilterSql.lean`.

| Theorem | Axioms | Says |
|---|---|---|
| `Thm.FilterSql.C07_any_no_metadata_violated` | pcq | C07 is violated on every store that has one record without metadata: no filter, of any depth, deletes anything any more. |
| `Thm.FilterSql.C07_any_number_violated` | pcq | C07 is violated on every store by equality with a number or a truth value: nothing is removed, also not the records that have that very number. |
| `Thm.FilterSql.C07_any_dotted_violated` | pcq | C07 is violated on every store by a name with a dot: no comparison on it removes anything, also not the records that have that very key. |
| `Thm.FilterSql.C07_any_negation_violated` | pcq | C07 is violated on every store by a negation inside a conjunction: it is dropped, and the call does exactly what it does without it. |
| `Thm.Filter.C07_exact_partial` | pcq | C07, part: on filters without negation whose comparisons SQL expresses, over records that all have metadata with numeric texts in the ordered fields, `DeleteByFilter` removes exactly the records that satisfy the filter. Missing for the full claim: negation, numeric and boolean equality, text order, records without metadata, dotted names; see the `C07_..._violated` theorems. |
| `Thm.Filter.C07_refused` | pcq | C07: an empty filter, and a filter that SQL cannot express at all, are refused and nothing changes. |
| `Thm.Filter.C07_error_atomic` | pcq | C07: a call that reports an error has removed nothing. |
| `Thm.Filter.C07_not_in_violated` | pcq | C07 is violated by negation inside a conjunction: `Equal("t","x").NotIn("k","a")` drops the NOT IN and deletes the record it was meant to keep. |
| `Thm.Filter.C07_number_violated` | pcq | C07 is violated by numeric equality: `Equal("n", 5)` does not delete a record with `n = 5`. |
| `Thm.Filter.C07_no_metadata_violated` | pcq | C07 is violated by a single record without metadata: no filter deletes anything any more. |
| `Thm.Filter.C07_dotted_violated` | pcq | C07 is violated by a dotted field name: the record with metadata key `a.b` is not deleted. |
| `Thm.Filter.C07_text_order_violated` | pcq | C07 is violated by a text in an ordered field: `GreaterThan("n", -1)` deletes the record with `n = abc`. |
| `Thm.FilterSql.C07_selected_partial` | pcq | C07: on records that all have metadata, `DeleteByFilter` removes exactly the records picked by what SQL expresses of the filter, for every filter of any depth whose comparisons have values of the kind they need. Negations are left out, so this is not the full claim: see the `C07_..._violated` theorems for what this means. |
| `Thm.FilterSql.C07_bare_refused` | pcq | C07: a filter of which SQL expresses nothing is refused, at any depth, and nothing changes. |
| `Thm.FilterSql.C07_list_refused` | pcq | C07: a list where one value is needed is refused, whatever the table holds. |
| `Thm.FilterSql.C07_panics_violated` | pcq | C07 is violated by IN and BETWEEN without their list: the deletion panics on every open store. |
| `Thm.FilterSql.C07_not_equal_number_violated` | pcq | C07 is violated by a negated equality with a number: `NotEqual("n", 5)` removes every record that has the field, those with `n = 5` included. |
| `Thm.FilterSql.C07_word_order_violated` | pcq | C07 is violated by order against a word, such as a date: `LessThan("d", "2024-01-01")` removes every record that has the field and `GreaterThan` removes none. |

### C08 — A collection-scoped search stays in its collection

Status: **proved**. Modelled as: three search paths over arbitrary index candidates. Proof: membership through filter, sort, truncate.
Proofs in `Thm/Search.lean`.

| Theorem | Axioms | Says |
|---|---|---|
| `Thm.Search.C08_in_collection` | pcq | C08: every result of a search with a collection name belongs to that collection, on every path and whatever candidates the index proposes. |

### C09 — Linear search returns exactly the top K

Status: **proved**. Modelled as: linear search with an arbitrary sorting permutation. Proof: top-K specification from sorted permutation.
Proofs in `Thm/Search.lean`.

| Theorem | Axioms | Says |
|---|---|---|
| `Thm.Search.C09_linear_topK` | pcq | C09: linear search answers exactly "the K best scored records inside the scope and above the threshold". |
| `Thm.Search.C09_score` | pcq | C09: without text weighting the score is the vector similarity; with it, a weighted mean, so it lies between the two similarities. |
| `Thm.Search.C09_ordered` | pcq | C09 on the index paths: best first and at most K of them. |
| `Thm.Search.C09_index_topK` | pcq | C09 on the index paths: among the stored records the index proposes, the answer is exactly the K best that pass the collection, the metadata filter (without `doc_id`) and the threshold. |

### C10 — Every search result satisfies the requested filter and threshold

Status: **partial**. Modelled as: same model with filter. Proof: partial without `doc_id` on index paths; violated with it.
Linear search honours the document filter; searches served by the HNSW or IVF index ignore a plain doc_id filter unless it is also stored metadata (C10_doc_id_violated).
Proofs in `Thm/Any3.lean`, `Thm/Search.lean`.

| Theorem | Axioms | Says |
|---|---|---|
| `Thm.Search.C10_any_doc_id_violated` | pcq | C10 is violated in every store served by an index that proposes something: asking for one document gives what is found without asking. |
| `Thm.Search.C10_linear` | pcq | C10 on the linear path: every result matches every filter key, `doc_id` included, and the threshold. |
| `Thm.Search.C10_index_partial` | pcq | C10, part, on every path: every result matches every filter key other than `doc_id`, and the threshold. Missing for the full claim: `doc_id` on the index paths, see `C10_doc_id_violated`. |
| `Thm.Search.C10_doc_id_violated` | pcq | C10 is violated on the index paths: the `doc_id` filter is ignored there. |

### C11 — ACL search returns only permitted records in the requested collection

Status: **partial**. Modelled as: ACL SQL predicate with SQL precedence. Proof: violated for collections; partial without a collection.
Principals are always respected; the collection restriction is lost for public rows because AND binds tighter than OR in the SQL (C11_collection_violated).
Proofs in `Thm/Search.lean`, `Thm/SearchAny.lean`.

| Theorem | Axioms | Says |
|---|---|---|
| `Thm.Search.C11_permitted` | pq | C11: only permitted records are returned, for any principals and collection. |
| `Thm.Search.C11_topK` | pcq | C11, completeness: without a collection the permitted records compete fairly; the answer is the K best of them. |
| `Thm.Search.C11_collection_partial` | pq | C11, part: the collection is respected when the caller has no principals. Missing for the full claim: callers with principals, for whom public records of every collection are returned, see `C11_collection_violated`. |
| `Thm.Search.C11_collection_topK_partial` | pcq | C11, what a collection does: the answer is the K best of the records that are public or, where the caller names principals, that list one of them in the collection; the collection restricts public records only when there are no principals. |
| `Thm.Search.C11_collection_violated` | pcq | C11 is violated: with a principal, a public record of another collection is returned. |
| `Thm.Search.C11_any_collection_violated` | pq | C11 is violated for every store: as soon as the caller has a principal, every record without a list of readers is in the answer, whatever collection was asked for. |

### C12 — Hybrid search fuses ranks soundly and respects the query scope

Status: **partial**. Modelled as: rank fusion over two lists. Proof: score, nodup, order, bound; scope violated.
Fusion scores proved for the modelled fusion; full-text hits ignore the requested collection and filter (C12_scope_violated).
Proofs in `Thm/Search.lean`, `Thm/SearchAny.lean`.

| Theorem | Axioms | Says |
|---|---|---|
| `Thm.Search.C12_fusion_partial` | pcq | C12, part: hybrid search scores every id by reciprocal rank fusion of the two lists, lists each id once, best first, at most TopK, cutting only the worst; the ids are those of the vector answer and the stored full-text answer. Missing for the full claim: full-text hits are not confined to the collection and filter, see `C12_scope_violated`. |
| `Thm.Search.C12_scope_partial` | pcq | C12, part: without text the answer stays in the requested collection and filter as far as `Search` does. |
| `Thm.Search.C12_scope_violated` | pcq | C12 is violated: a full-text hit outside the requested collection is returned. |
| `Thm.Search.C12_any_scope_violated` | pcq | C12 is violated for every store: a record the keyword index proposes is in the answer, whatever collection and filter were asked for. |

### C13 — In strict mode every stored vector has the store's dimension

Status: **partial**. Modelled as: dimension field in the state machine. Proof: violated through the batch path and reopen; partial for single writes.
Holds when batches carry the fixed dimension, reopening keeps it and no empty vector comes first; each excluded case is a violation witness.
Proofs in `Thm/Any3.lean`, `Thm/StoreProps2.lean`, `Thm/Wider.lean`.

| Theorem | Axioms | Says |
|---|---|---|
| `Thm.StoreProps.C13_any_reopen_violated` | pcq | C13 is violated in every store that holds a record: reopened without a dimension, it takes the dimension of the next vector written, and the older record keeps its own. |
| `Thm.StoreProps.C13_strict_partial` | pcq | C13, part: under the strict policy and admissible calls every stored vector has the store's dimension, whatever the history. Missing for the full claim: the calls excluded by `Admissible`, on which the code violates it. |
| `Thm.StoreProps.C13_batch_violated` | pcq | C13 is violated by a batch write: no dimension check. |
| `Thm.StoreProps.C13_reopen_violated` | pcq | C13 is violated by reopening with dimension auto-detection: the detected dimension is not kept in the file. |
| `Thm.StoreProps.C13_empty_violated` | pcq | C13 is violated by a first write with an empty vector: it is stored and fixes nothing. |
| `Thm.StoreProps.C13_any_batch_violated` | pcq | C13: a batch that succeeds stores every vector as it is given, whatever dimension the store has. |

### C14 — Dimension adaptation always produces the target length

Status: **proved**. Modelled as: adaptation functions over lists. Proof: length and sublist lemmas.
Proofs in `Thm/Dimension.lean`.

| Theorem | Axioms | Says |
|---|---|---|
| `Thm.Dimension.C14_length` | pcq | C14: an accepted adaptation always has the target length. |
| `Thm.Dimension.C14_refused` | pcq | C14: the non adapting policies refuse every mismatch, and every policy refuses a wrong source length. |
| `Thm.Dimension.C14_same` | pcq | C14: a vector that already has the target length is returned unchanged under every policy. |
| `Thm.Dimension.C14_total` | pcq | C14: adaptation succeeds whenever the policy is an adapting one. |
| `Thm.Dimension.C14_smart_truncate` | pcq | C14: smart truncation keeps the `t` components of largest magnitude, in their original order, brought to unit length. |
| `Thm.Dimension.C14_pad_truncate` | pcq | C14: padding (and truncation upward) keeps the whole input as a prefix and adds zeros, brought to unit length; truncation keeps the leading components. |
| `Thm.Dimension.C14_smart_pad` | pcq | C14: smart padding keeps the whole input as a prefix followed by the noise, brought to unit length. |

### C15 — A closed store refuses every write

Status: **proved**. Modelled as: closed flag in the state machine. Proof: induction over histories.
Proofs in `Thm/StoreProps2.lean`.

| Theorem | Axioms | Says |
|---|---|---|
| `Thm.StoreProps.C15_closed_refuses` | pcq | C15: on a closed store every operation fails and changes nothing. The error is "closed", except that a filter delete without a filter is refused for that reason first. |
| `Thm.StoreProps.C15_close` | pcq | C15: `Close` may be repeated, always succeeds, and leaves data and indexes alone. |
| `Thm.StoreProps.C15_stays` | pcq | C15: after `Close`, any number of further calls (short of opening the file again) leaves the data as it was. |
| `Thm.StoreProps.C15_read_refused` | p | C15: reads are refused as well. |

### C16 — Collections have unique names and delete exactly their own records

Status: **proved**. Modelled as: collection table. Proof: invariant by induction.
Proofs in `Thm/StoreProps2.lean`.

| Theorem | Axioms | Says |
|---|---|---|
| `Thm.StoreProps.C16_unique_names` | pcq | C16: no two collections share a name (nor an internal id), after any history. |
| `Thm.StoreProps.C16_create` | pcq | C16: creating a collection fails, changing nothing, exactly when the name is taken or the dimension is negative (working storage, open store); otherwise there is one more, empty, collection of that name and the rows are the same. |
| `Thm.StoreProps.C16_delete` | pcq | C16: deleting a collection removes it and its records, no other collection and no other record; if the name is unknown it fails and changes nothing. |
| `Thm.StoreProps.C16_count` | pcq | C16: the reported count is the number of records in the collection. |
| `Thm.StoreProps.C16_shown` | pq | C16: a record shows the name of the collection it belongs to. |

### C17 — Deleting a document deletes its chunks

Status: **partial**. Modelled as: foreign-key enforcement per pooled connection. Proof: violated with a second connection; partial on the enforcing connection.
Holds when every statement runs on a connection with foreign keys on; the pragma is set on one pooled connection only (C17_violated).
Proofs in `Thm/Any2.lean`, `Thm/StoreProps2.lean`.

| Theorem | Axioms | Says |
|---|---|---|
| `Thm.StoreProps.C17_any_delete_violated` | pcq | On a connection without the constraint, deleting any document leaves every chunk of it in the store. |
| `Thm.StoreProps.C17_linked_partial` | pcq | C17, part: as long as every write runs on an enforcing connection no stored chunk ever refers to a missing document or collection. Missing for the full claim: connections on which the pragma was never executed, see `C17_violated`. |
| `Thm.StoreProps.C17_delete_partial` | pcq | C17, part: on an enforcing connection deleting a stored document removes it and exactly the chunks that refer to it. |
| `Thm.StoreProps.C17_violated` | pcq | C17 is violated: on a pooled connection without the pragma a chunk may refer to a missing document, and deleting a document leaves its chunks. |

### C18 — Session history is the most recent messages, oldest first

Status: **proved**. Modelled as: message table, order by time. Proof: specification of last n.
Proofs in `Thm/Chat.lean`.

| Theorem | Axioms | Says |
|---|---|---|
| `Chat.C18_history` | pq | C18: for every message table and every non-negative limit, the history is exactly a correct answer to "the most recent `limit` messages of that session, oldest first", however the database orders messages with equal times. |
| `Chat.C18_own_session` | p | C18: only messages of the requested session are ever returned, whatever the limit. |
| `Chat.C18_negative_limit` | pq | C18: a negative limit returns the whole session, oldest first. |
| `Chat.C18_in_order_added` | pq | C18: over every history of session and message writes under a strictly advancing clock, the history of a session is exactly the last `n` messages that were accepted for it, in the order they were added. |
| `Chat.C18_add` | q | C18: what is stored carries the time of the call, never the caller's; an accepted message is the newest in the table; a refused one changes nothing. |
| `Chat.C18_ids_unique` | pq | C18: message ids stay unique over every history. |

### C19 — Chat search ranks by similarity within one session

Status: **partial**. Modelled as: exchange sort over scored messages. Proof: sort correctness.
Exact for non-negative limits; a negative limit makes SearchChatHistory panic (C19_negative_violated).
Proofs in `Thm/Chat.lean`, `Thm/Wider.lean`.

| Theorem | Axioms | Says |
|---|---|---|
| `Chat.C19_any_negative_violated` | p | C19: every negative limit panics, for every open store, session and query. |
| `Chat.C19_session_partial` | pq | C19: for every message table, query and non-negative limit, the result is the `limit` most similar messages of that session (among those stored with a vector), most similar first. |
| `Chat.C19_negative_violated` | p | C19: a negative limit panics instead of returning (an error) |
| `Chat.C19_user` | pq | C19: the user-wide search returns the most similar messages of that user's sessions (without the excluded one), at most `limit` (10 when none is given). |
| `Chat.C19_user_scope` | pq | C19: neither of the user-wide searches ever returns a message from another user's session or from the excluded session, for every matching and ranking the full text index may use. |
| `Chat.C19_any_negative_violated` | p | C19: every negative limit panics, for every open store, session and query. |

### C20 — Filter strings parse with the usual precedence

Status: **partial**. Modelled as: parser over token lists/strings. Proof: violated by witnesses; partial for single-connective strings.
Conjunctions of comparisons and parenthesised disjunctions, plain disjunctions, IN lists, and quoted values. Violations: OR beside AND, two groups, BETWEEN (no filter string at all parses to a range; the documented example is rejected), ':=', operators or connectives inside quotes, a lone quote panics.
Proofs in `Thm/FilterParse.lean`, `Thm/FilterText.lean`.

| Theorem | Axioms | Says |
|---|---|---|
| `Thm.Filter.C20_conjunction_partial` | pcq | C20, part: a conjunction of comparisons and parenthesised disjunctions of comparisons, over plain names and values, parses to an expression that asks for all members, where the last member is not parenthesised or none of the others is. Missing for the full claim: OR without parentheses next to AND, two parenthesised members, BETWEEN, NOT, `:=`; see the `C20_..._violated` theorems. |
| `Thm.Filter.C20_disjunction_partial` | pcq | C20, part: a disjunction of comparisons over plain names and values parses to an expression that asks for any member. |
| `Thm.Filter.C20_parentheses` | pcq | C20: parentheses around a whole expression change nothing. |
| `Thm.Filter.C20_precedence_violated` | pcq | C20 is violated by a disjunction next to a conjunction: `t:x OR t:y AND k:a` refuses `t = x` without `k`. |
| `Thm.Filter.C20_documented_example_violated` | pcq | C20 is violated by the example in the documentation of the parser: it is rejected because of BETWEEN's AND. |
| `Thm.Filter.C20_groups_violated` | pcq | C20 is violated by two parenthesised members: the outer parentheses are stripped as if they belonged together, and the value compared with is `x)`. |
| `Thm.Filter.C20_assign_violated` | pcq | C20 is violated by the documented spelling `:=`: the name read is `t:`. |
| `Thm.Filter.C20_quote_violated` | pcq | C20: a lone quote as a value panics instead of giving an error. |
| `Thm.Filter.C20_between_violated` | pcq | C20 is violated by every range: no filter string at all parses to an expression with BETWEEN, because its AND is always taken for a connective. |
| `Thm.Filter.C20_in` | pcq | C20: `name IN (a,b,...)` asks for any of the listed values, in any number. |
| `Thm.Filter.C20_in_refused` | pcq | C20: `name IN rest` is refused unless the rest stands in parentheses. |
| `Thm.Filter.C20_quoted_partial` | pcq | C20: a comparison with spaces around its operator and a quoted value, which may hold any characters other than the operators' and none of the connectives, compares with exactly the text between the quotes. Missing for the full claim: operators and connectives inside quotes, see `C20_quoted_violated`. |
| `Thm.Filter.C20_quoted_violated` | pcq | C20 is violated by operators and connectives inside quotes: `t='a>b'` is read as `t='a` greater than `b'`, and a quoted AND splits the value. |

### C21 — The SQL filter and the in-memory filter agree

Status: **partial**. Modelled as: two evaluators. Proof: violated; partial for the common fragment.
Agreement for plain comparisons; each exclusion has a witness of disagreement.
Proofs in `Thm/Filter.lean`, `Thm/FilterAny.lean`.

| Theorem | Axioms | Says |
|---|---|---|
| `Thm.Filter.C21_agree_partial` | pcq | C21, part: on expressions without negation and with plain names, for metadata in which ordered fields hold numbers, text equality is not asked of numerals, the fields of `!=` are present and LIKE patterns are simple and in lower case, the SQL form selects the record if and only if the in-memory evaluation accepts it. Missing for the full claim: everything excluded here disagrees, see the `C21_..._violated` theorems. |
| `Thm.Filter.C21_memory_partial` | pcq | C21: in-memory evaluation follows the specification also under negation, at any depth. |
| `Thm.Filter.C21_not_violated` | pcq | C21 is violated by negation inside AND: SQL accepts, memory refuses. |
| `Thm.Filter.C21_missing_violated` | pcq | C21 is violated by `!=` on a missing field: SQL refuses, memory accepts. |
| `Thm.Filter.C21_numeral_violated` | pcq | C21 is violated by numerals: memory compares 5 and 05 as numbers, SQL as texts. |
| `Thm.Filter.C21_case_violated` | pcq | C21 is violated by LIKE with capitals: SQL ignores case, memory does not. |
| `Thm.Filter.C21_empty_violated` | pcq | C21 is violated by a connective without children inside OR: memory accepts the empty AND, SQL drops it. |
| `Thm.Filter.C21_any_missing_violated` | pcq | C21 is violated for every record without the field: `!=` is refused by SQL and accepted in memory. |
| `Thm.Filter.C21_any_numeral_violated` | pcq | C21 is violated for every field that holds another numeral of the same number: memory says it is equal to the text asked for, SQL says it is not. |
| `Thm.Filter.C21_any_not_violated` | pcq | C21 is violated by every negation in a conjunction: SQL leaves it out, so every record that satisfies the rest is selected; memory refuses those that satisfy what is negated. |
| `Thm.Filter.C21_any_empty_violated` | pcq | C21 is violated by every disjunction with an empty conjunction: memory accepts every record, SQL only those that satisfy the rest. |
| `Thm.Filter.C21_any_case_violated` | pcq | C21 is violated by LIKE for every pattern without wildcards and every other spelling of it in capitals and small letters: SQL accepts it, memory does not. |

### C22 — Dump followed by Load restores every record

Status: **partial**. Modelled as: dump/load record maps. Proof: violated for ACL; partial without ACL.
Proved: dumping and loading into an empty store with the same collections restores every record except access lists (both formats). Violated: access lists are lost, unknown collections are not created, a non-finite component makes the JSON dump fail.
Proofs in `Thm/Io.lean`.

| Theorem | Axioms | Says |
|---|---|---|
| `Io.C22_lines_partial` | pcq | **C22 (partial).** Dumping any store whose vectors are finite, and loading the dump into an empty store that has the collections (and documents, where enforced) and dimension, imports every record, and every identifier then gives the source's record except for its access list (and an empty metadata map, which becomes nil); identifiers the source does not have are not there either. |
| `Io.C22_array_partial` | pcq | **C22 (partial), JSON.** The same for the JSON format. |
| `Io.C22_filtered` | pq | C22, a dump with a filter: exactly the records whose metadata meet it are written, in the order of the table, whatever the store holds; a filter that cannot be evaluated on some record writes nothing and is an error. |
| `Io.C22_closed` | p | C22, C23: a closed store neither exports nor imports: every call is an error, writes nothing and leaves the store as it was. |
| `Io.C22_plain_partial` | p | **C22.** So records that had no access list (and no empty metadata map) come back unchanged. |
| `Io.C22_acl_lost_violated` | pcq | **C22, violated.** Every record with an access list comes back without it: what only some users might see is open to all after a dump and a load. |
| `Io.C22_collection_violated` | pq | **C22, violated.** A record of a collection that the target does not have is not loaded: an empty new store has only the default collection and `Load` creates none. |
| `Io.C22_nan_violated` | pcq | **C22, violated.** One vector with a component JSON cannot express makes the whole JSON dump fail. |

### C23 — Loading always terminates and reports each line once

Status: **partial**. Modelled as: decoder stream with sticky errors, fuel-free relation. Proof: violated (divergence); partial for well-formed streams.
Proved: on JSON lines without unreadable text, and on JSON without null entries, load terminates and counts every value once. Violated: unreadable text makes the JSON lines loader loop forever, and a null entry makes the JSON loader panic.
Proofs in `Thm/Io.lean`.

| Theorem | Axioms | Says |
|---|---|---|
| `Io.C23_lines_partial` | pq | **C23 (partial).** On every JSON lines input that has no unreadable text, whatever the shapes of its values and the failures of the storage layer, `Load` terminates, and it counts every value exactly once: as skipped when the record was present, as imported when it was written, as failed otherwise. |
| `Io.C23_broken_violated` | p | **C23, violated.** On every input with text that is not JSON, is cut off or cannot be read, `Load` never returns, however long it runs. |
| `Io.C23_load_hangs_violated` | p | **C23, violated.** … so the call as a whole does not return on an open store. |
| `Io.C23_array_partial` | pq | **C23 (partial), JSON.** Loading a JSON document counts each of its records exactly once when none of them is `null`. |
| `Io.C23_array_undecodable` | p | **C23.** A JSON file that does not decode is reported and changes nothing. |
| `Io.C23_null_violated` | p | **C23, violated.** A `null` among the records of a JSON document makes `Load` panic. |

### C24 — Aggregations agree with the records

Status: **partial**. Modelled as: aggregations over rational columns. Proof: algebraic identities.
Proved under the stated guards (every record in scope has metadata, plain names, text filters, numeric values, names that are not SQL words). Violated outside them: nil metadata fails the query, numeric filters never match, non-numeric text counts as 0, reserved words as group fields fail, 1 and 1.0 are two groups with one key, a field named count changes the order.
Proofs in `Thm/Aggregate.lean`, `Thm/Details.lean`.

| Theorem | Axioms | Says |
|---|---|---|
| `Aggregate.C24_count_partial` | pcq | **C24 (partial), count.** For every store and request whose names are plain and whose filter values are texts, the count is the number of matching records; with filters, every record of the collection must have metadata. |
| `Aggregate.C24_numbers_partial` | pcq | **C24 (partial), numbers.** Under the same conditions, and when the field of every matching record that has it reads as a number, SUM, AVG, MIN and MAX are those of the numbers of the matching records (0 when there are none), and the count is how many there are. |
| `Aggregate.C24_groups_partition_partial` | pcq | **C24 (partial), groups.** Without a condition on the groups and without a limit, grouping returns each key of a matching record exactly once, with the number of the matching records that have it as count and value, most frequent first, and the counts add up to the number of matching records. Needed: every record of the collection has metadata, the field names are plain, are not SQL words and are not `count`, and no two different texts read as the same number. |
| `Aggregate.C24_groups_limited_partial` | pcq | **C24 (partial), groups with HAVING and LIMIT.** With any condition on the groups and any limit, what is returned are groups that satisfy the condition, each once with its true count, most frequent first, at most the limit, and no group left out is more frequent than one returned. |
| `Aggregate.C24_nil_metadata_violated` | pcq | **C24, violated.** One record without metadata in the collection makes every SUM, AVG, MIN, MAX and grouping over it fail. |
| `Aggregate.C24_number_filter_violated` | pcq | **C24, violated.** A filter with a number (or a boolean) never matches, whatever the records hold: the count is 0. |
| `Aggregate.C24_text_is_zero_violated` | pcq | **C24, violated.** A value that is not a number counts as 0: the minimum and the average of 10 and "n/a" are 0 and 5. |
| `Aggregate.C24_sql_word_violated` | pcq | **C24, violated.** Grouping by a field whose name is an SQL word (`order`, `group`, `index`, `values`, …) fails in every store. |
| `Aggregate.C24_same_key_twice_violated` | pcq | **C24, violated.** Two texts of the same number make two groups with the same key. |
| `Aggregate.C24_count_field_violated` | pcq | **C24, violated.** Grouping by a field called `count` orders the groups by that field, not by how many records they have; with a limit the most frequent group is left out. |
| `Aggregate.C24_refused` | pcq | C24: an aggregation without a kind or of an unknown kind, a sum, average, minimum or maximum without a field, and a grouping without fields are refused, in every open store. |

### C25 — Range search returns exactly the records inside the radius

Status: **partial**. Modelled as: distance derived from score. Proof: violated for cosine; partial for Euclidean.
Range search returns exactly the records within the radius for Euclidean stores and for cosine stores under the guard given; for orthogonal and opposite vectors the cosine distance check loses records.
Proofs in `Thm/Range.lean`.

| Theorem | Axioms | Says |
|---|---|---|
| `Range.C25_euclid_partial` | pcq | **C25 (partial), Euclidean distance.** On a store whose score is the negated distance, for every query, radius, scope and limit, a range search finds exactly the records of the scope at most `radius` away, nearest first, all of them unless a limit is given. |
| `Range.C25_cosine_partial` | pcq | **C25 (partial), cosine.** On a store whose score is one minus the distance, the same holds when every record of the scope has positive similarity to the query. |
| `Range.C25_orthogonal_violated` | pcq | **C25, violated.** With cosine similarity every record of the scope that is orthogonal to the query, or has another dimension (similarity 0, so at distance 1), is found for every positive radius, however small, and shown at distance 0. |
| `Range.C25_opposite_violated` | pcq | **C25, violated.** With cosine similarity a record that points away from the query (similarity −x, so at distance 1 + x) is shown at distance x, so it is found although it is farther than the radius. |
| `Range.C25_radius` | pcq | A radius that is not positive is refused. |
| `Range.C25_batch` | pcq | **C25, batches.** The answer to a batch is the answers to its queries, in order. |

### C26 — Collecting top K from a stream gives the global top K

Status: **partial**. Modelled as: stream fold. Proof: violated by early return; partial when no early return.
Exact when fewer than k distinct results exceed 0.9 (C26_exact_partial); otherwise the early return discards better results (violated) and k=0 panics (violated).
Proofs in `Thm/Stream.lean`.

| Theorem | Axioms | Says |
|---|---|---|
| `Stream.C26_collect_partial` | pq | C26 (partial): for every stream and every positive `k` the answer is the top `k` of the distinct results of the whole stream, or (early return) of a part of the stream that came first, and then there are `k` of them and all score above 0.9. |
| `Stream.C26_exact_partial` | pq | C26 (partial): when fewer than `k` distinct results score above 0.9, the answer is the top `k` of the distinct results of the whole stream. |
| `Stream.C26_early_return_violated` | pq | C26 is violated: once `k` results score above 0.9 the rest of the stream is thrown away, whatever it holds. |
| `Stream.C26_zero_panics_violated` | p | C26 is violated: asking for no results panics as soon as one arrives, and asking for a negative number panics at once. |

### C27 — Accepted asynchronous updates are applied in order

Status: **partial**. Modelled as: queue machine with worker steps. Proof: violated (reordering, lost batch); partial without search interleaving.
All accepted updates are accounted for under every schedule. In-order application and draining proved without concurrent searches and failing flushes; searches reorder updates, failed flushes lose them, closing during a search panics (violated).
Proofs in `Thm/Stream.lean`.

| Theorem | Axioms | Says |
|---|---|---|
| `Stream.C27_accounted` | pq | C27: under every schedule of producers, searches, flushes and closing, every accepted update is in exactly one place: applied, in the batch of the worker, in the queue, held by a search, or lost by a failed flush; nothing else is ever applied. |
| `Stream.C27_in_order_partial` | pq | C27 (partial): without searches during the updates and without failing flushes, updates are applied in the order in which they were accepted, and closing applies all of them, so that the last accepted update of every id is the one stored. Missing: concurrent searches and failing flushes, see below. |
| `Stream.C27_search_reorders_violated` | pcq | C27 is violated: a search that looks at a pending update puts it back behind newer ones, and the older version is stored last, for every id and every two versions. |
| `Stream.C27_failed_flush_loses_violated` | pcq | C27 is violated: the error of a failed flush is dropped together with the accepted updates. |
| `Stream.C27_close_during_search_violated` | p | C27 is violated: closing while a search holds an update makes the search panic (send on a closed channel), and the update is never stored. |

### C28 — Concurrent store operations cannot deadlock

Status: **partial**. Modelled as: writer-preferring RW lock machine, arbitrary callers. Proof: deadlock freedom for flat calls; violated for nested read locks.
No deadlock and all calls return for calls that do not take the lock twice, and for any calls without exclusive ones; every nested call deadlocks with every exclusive call (violated for all pairs).
Proofs in `Thm/Lock.lean`.

| Theorem | Axioms | Says |
|---|---|---|
| `Lock.C28_no_deadlock_partial` | pcq | **C28 (partial).** Any number of threads make any calls, none of which takes the store lock while holding it. Under every schedule, as long as some call has not returned some thread can move; whatever has happened, all calls can still return; and no schedule is longer than the number of events, so that every schedule that keeps moving threads that can move ends with all calls returned. |
| `Lock.C28_without_writers_partial` | pcq | **C28 (partial).** Calls of any kind, nested ones included, never deadlock as long as nobody needs the store exclusively. |
| `Lock.C28_nested_deadlocks_violated` | pq | **C28, violated.** Every call that takes the store lock twice deadlocks with every call that needs it exclusively: there is a schedule after which neither ever moves again. |

### C29 — Committed records are searchable after a crash and reopen

Status: **partial**. Modelled as: snapshot/log/crash machine. Proof: violated; partial when the snapshot is current or absent.
Rows, in-memory index entries, snapshot, auto-save and close as a state machine. Proved: a store that never wrote a snapshot reopens exactly; clean histories (no kill, no auto-save during Close, no HNSW id reuse) stay complete. Negated: records written after a snapshot are lost by a crash and never repaired, auto-save can overwrite the snapshot of a clean Close, a removed and rewritten id stays missing.
Proofs in `Thm/Recover.lean`.

| Theorem | Axioms | Says |
|---|---|---|
| `Recover.C29_rebuild_partial` | pq | **C29 (partial).** Whatever was written and removed, and wherever the process died, a store that has never written a snapshot of its index reopens with every committed record in it, and for HNSW with exactly the committed records and vectors. |
| `Recover.C29_clean_history_partial` | pcq | **C29 (partial).** A new store, after any history of writes, removals, trainings, saves and clean restarts in which auto-save is not running while the store closes, and in which (for HNSW) no identifier is written again after it was removed, has every committed record in its index. |
| `Recover.C29_snapshot_loses_violated` | pq | **C29, violated.** Once a snapshot exists, every record first written after it is missing from the index when the process dies before the next snapshot, although its row is committed. |
| `Recover.C29_never_repaired_violated` | pq | **C29, violated.** … and no later history repairs it: with an HNSW index and a snapshot, as long as the record is not written again it stays out of the index, however often the store is saved, closed and reopened. |
| `Recover.C29_autosave_overwrites_violated` | p | **C29, violated.** Even a clean close loses records: when auto-save has serialised the index before a record was written and writes its snapshot after `Close` wrote its own, the reopened index lacks the record. |
| `Recover.C29_rewritten_missing_violated` | pcq | **C29, violated.** A record that is removed and written again is not in the HNSW index, without any crash. |

### C30 — HNSW search results are live, distinct, sorted and at most k

Status: **proved**. Modelled as: HNSW search over arbitrary graph. Proof: loop invariants.
Proved for every history of Insert, InsertBatch, InsertBatchParallel and Delete, with random levels and map order as inputs.
Proofs in `Thm/Counts.lean`, `Thm/Hnsw.lean`.

| Theorem | Axioms | Says |
|---|---|---|
| `Hnsw.C30_default` | pcq | C30: the search without a candidate list size returns, after any history, only ids that were inserted and not deleted, each once, nearest first and at most `k`. |
| `Hnsw.C30_search_sound` | pcq | C30: after any history no call and no search fails, and a search returns only ids that were inserted and not deleted, each once, with the distance from the query to the vector kept for it, nearest first and at most `k`. |

### C31 — The HNSW graph stays well formed

Status: **partial**. Modelled as: HNSW insert/delete with arbitrary levels. Proof: inductive invariant.
Reference integrity proved for all histories; the 'exists on that layer' part is violated by every insert whose level exceeds the entry point's (proved for all such states) and holds when no insert does.
Proofs in `Thm/Hnsw.lean`.

| Theorem | Axioms | Says |
|---|---|---|
| `Hnsw.C31_links_resolve` | pcq | C31: after any history every neighbour list is free of repetition, never names its own node and names only stored nodes, and the entry point is stored. |
| `Hnsw.C31_neighbour_on_layer_violated` | pcq | C31, the layer part is violated: whenever a new id draws a level above the level of the entry point, the new node's list on its top layer names the entry point, which does not exist on that layer. |
| `Hnsw.C31_neighbour_on_layer_partial` | pcq | C31, the layer part, as far as it holds: when no insert draws a level above the entry point's, every neighbour on a layer exists on that layer. Missing: inserts that raise the top layer, and batches. |

### C32 — A record written again is searchable with its new vector

Status: **partial**. Modelled as: HNSW insert on existing id. Proof: violated; partial for first writes.
Violated for every known id: Insert returns an error and changes nothing, so updates and rewrites after delete never reach the index. Holds for the first write of an id.
Proofs in `Thm/Hnsw.lean`.

| Theorem | Axioms | Says |
|---|---|---|
| `Hnsw.C32_rewrite_ignored_violated` | pcq | C32 is violated: an id that was ever inserted, deleted or not, never takes another vector: `Insert` returns an error, `InsertBatch` returns none, and the index is as before. |
| `Hnsw.C32_first_write_partial` | pcq | C32 as far as it holds: a vector inserted under an id that was never used is the one the index answers with until the id is deleted. Missing: updates and re-use of a deleted id. |

### C33 — Parallel index building loses no record

Status: **partial**. Modelled as: parallel merge. Proof: violated by reachability witness; partial for sequential batch.
Violated by every real parallel build (two or more workers with ten or more vectors each): the sub-graphs are merged without links between them. Holds for small sequential fall-backs.
Proofs in `Thm/Hnsw.lean`.

| Theorem | Axioms | Says |
|---|---|---|
| `Hnsw.C33_small_build_complete_partial` | pcq | C33 as far as it holds: with one worker, or fewer than ten vectors for each, and at most `2 M + 1` vectors, the build is sequential and a search for all of them returns all. |
| `Hnsw.C33_parallel_build_loses_vectors_violated` | pcq | C33 is violated by every real parallel build of a new index: whatever the vectors, levels and distances, at least ten of the given vectors are returned by no search whatsoever. |

### C34 — IVF deletion removes exactly the given id

Status: **partial**. Modelled as: IVF lists. Proof: violated by deletion witness; partial under stated order.
Holds when deletions hit the last vector of a cluster and training is on an empty index; violated by other deletions, updates and retraining (universal negations).
Proofs in `Thm/Ivf.lean`.

| Theorem | Axioms | Says |
|---|---|---|
| `Ivf.C34_contents_partial` | pcq | C34 as far as it holds: when every deleted vector is the last of its cluster and training happens on an empty index, no call panics, `Size` is the number of entries added and not deleted, and a search reports the `k` best of some of these entries, each at most as often as it was added, with its distance; with all clusters probed it reports the `k` best of all. Missing: other deletions and retraining (both violated below). |
| `Ivf.C34_delete_loses_next_violated` | pcq | C34 is violated by the deletion of any vector that is followed by another one in its cluster: the next vector of the cluster is returned by no later search, whatever the query, although it was never deleted. |
| `Ivf.C34_delete_then_search_panics_violated` | pcq | C34 is violated: when the deleted vector shares its cluster with the vector added last, every later search of all clusters panics. |
| `Ivf.C34_update_keeps_old_violated` | pcq | C34 is violated by an update: adding an id again keeps both entries, and deleting the id removes only the older one, so that a search of all clusters for everything still returns it. |
| `Ivf.C34_retrain_loses_violated` | pcq | C34 is violated by training again: the vectors are still counted and no search returns any of them. |

### C35 — Flat index search is exact

Status: **partial**. Modelled as: bounded max-heap search, quicksort. Proof: exactness.
Exact for positive k; panics for k <= 0 on a non-empty index; range search and contents proved in full.
Proofs in `Thm/Flat.lean`.

| Theorem | Axioms | Says |
|---|---|---|
| `Flat.C35_search_exact_partial` | pcq | C35, positive `k`: whatever the history and whatever the order in which the map is visited, a search returns the `k` nearest of the current vectors with their distances, nearest first; of a wrong dimension, nothing. Missing: `k` zero or negative, which panics (below). |
| `Flat.C35_nonpositive_k_panics_violated` | pq | C35 is violated for `k` zero or negative: on every non-empty index the search panics. |
| `Flat.C35_range_exact` | pcq | C35, range: whatever the history and the order of the map, exactly the current vectors within the radius are returned, each once with its distance, nearest first. |
| `Flat.C35_contents` | pq | C35, contents: `GetVector` returns the vector last accepted (normalised for the cosine index), `Size` counts the ids present, `Delete` reports whether the id was there. |

### C36 — LSH finds an inserted vector and never a deleted one

Status: **proved**. Modelled as: buckets by hash. Proof: invariant.
Any history, any projections with at least one table; single and multi-probe search.
Proofs in `Thm/Lsh.lean`.

| Theorem | Axioms | Says |
|---|---|---|
| `Lsh.C36_search` | pcq | C36: after any history, with any projections and at least one table, a search returns an error exactly for a query of a wrong dimension; otherwise distinct current vectors with their distances, nearest first, at most `k`, and a vector equal to the query is among them unless `k` others are at least as near. The same for a multi-probe search. |
| `Lsh.C36_self_found` | pcq | C36: when `k` is at least the number of vectors, every vector equal to the query is returned. |
| `Lsh.C36_delete_and_size` | pcq | C36: `Delete` reports whether the id was there, and `Size` counts the ids present. |

### C37 — Composite indexes keep their parts in step

Status: **partial**. Modelled as: hybrid/multi index. Proof: violated; partial.
Multi index: proved for parts that forget what they delete (the HNSW adapter does, the IVF adapter does not after a duplicate insert). Hybrid index: violated, Delete never reaches the IVF part and a failed Insert leaves the HNSW entry, which blocks every retry.
Proofs in `Thm/Details8.lean`, `Thm/MultiIndex.lean`.

| Theorem | Axioms | Says |
|---|---|---|
| `MultiIndex.C37_multi_reported` | pq | C37: a call on a multi index reports success exactly when every part, as it was, does what was asked without an error: one failing part is reported, in whatever order the parts are visited, one after the other or at once. |
| `MultiIndex.C37_multi_delete_partial` | pcq | C37 (partial): if every part forgets an id that it deletes successfully, then after any history and a successful `Delete` on the multi index, and until the id is inserted again, no strategy returns it. The parts of the repository do not all meet the condition, see below. |
| `MultiIndex.C37_hybrid_delete_keeps_violated` | pcq | C37 is violated by the hybrid index: after any history, `Delete` reports success and every result that the IVF part gives, also for the deleted id, is still returned. |
| `MultiIndex.C37_hybrid_delete_partial` | pcq | C37 (partial): after a `Delete` the hybrid index returns the id only when its IVF part still does. |
| `MultiIndex.C37_hybrid_failed_insert_leaves_trace_violated` | pcq | C37 is violated by the hybrid index: after any history in which the IVF part was never trained successfully, or for a vector of a wrong dimension, inserting a new id returns an error, yet the id is in the HNSW part, and from then on every insert of it is refused, also after training. |
| `MultiIndex.C37_multi_failed_insert_leaves_trace_violated` | pq | C37 is violated by the multi index: with parallel inserts, when one part takes the id and another refuses it, the call fails and the id stays in the part that took it. |
| `MultiIndex.C37_multi_delete_leaves_copy_violated` | pcq | C37 is violated by the multi index with the parts of the repository: the refused second insert reaches the IVF part, and the successful delete removes one of the two entries there. |

### C38 — Scalar quantization is lossless on codes and bounded on values

Status: **partial**. Modelled as: bit packing over naturals, rational quantizer. Proof: round trip and error bound.
Packing is lossless for every width and dimension (C38_packing_lossless), decoding fails exactly on short data. The half-step bound is violated for every trained quantizer: the scaled value is truncated; proved bound is below one full step, from below.
Proofs in `Thm/Quant.lean`.

| Theorem | Axioms | Says |
|---|---|---|
| `Quant.C38_packing_lossless` | pcq | C38: packing and unpacking codes of any width, for any number of codes; also when more bytes follow. |
| `Quant.C38_error_below_step_partial` | pcq | C38 (partial): encoding and decoding a vector of the right dimension gives, in every component, the nearest value of the trained range rounded down by less than one quantization step. The claim asks for half a step, which is violated, see below. |
| `Quant.C38_in_range` | pcq | C38: a vector inside the range is reconstructed from below to within a step. |
| `Quant.C38_half_step_violated` | pcq | C38 is violated: for every trained quantizer of a positive dimension there is a vector inside the trained range whose reconstruction is off by more than half a step in every component, because the scaled value is cut off instead of rounded. |
| `Quant.C38_decode_short` | pcq | C38: decoding fails exactly on data that is too short. |

### C39 — Binary codes preserve sign patterns and Hamming search is exact

Status: **partial**. Modelled as: bit vectors. Proof: idempotence and metric laws.
Bits, re-encoding, Hamming count and metric proved in full. Search exact for codes of the query's length; a code of another length gets distance -1 and ranks first (violated). Re-encoding assumes adding 0.5 to a threshold is not absorbed by rounding.
Proofs in `Thm/Counts.lean`, `Thm/Quant.lean`.

| Theorem | Axioms | Says |
|---|---|---|
| `Quant.C39_new` | pcq | C39: a new binary quantizer refuses to encode and to decode until it is trained; a training that fails leaves it so. |
| `Quant.C39_encode_signs` | pcq | C39: the code of a vector has one bit per component, set exactly when the component exceeds the threshold, and clear padding. |
| `Quant.C39_reencode` | pcq | C39: decoding any byte string of the right length and encoding the result returns the byte string, provided its padding bits are clear (as they are in every code that `Encode` makes). |
| `Quant.C39_decode_rejects` | p | C39: decoding refuses exactly the byte strings of a wrong length. |
| `Quant.C39_encode_rejects` | pcq | C38, C39: an untrained quantizer and a vector of a wrong dimension are refused. |
| `Quant.C39_hamming_counts` | pcq | C39: the Hamming distance of two codes of the same length is the number of bits in which they differ. |
| `Quant.C39_hamming_metric` | pcq | C39: on codes of one length the Hamming distance is a metric. |
| `Quant.C39_search_exact_partial` | pcq | C39 (partial): over codes of the length of the query, a binary search returns the `k` codes nearest in Hamming distance, nearest first, each position once with its distance. Missing: codes of another length, see below. |
| `Quant.C39_mismatch_ranks_first_violated` | pcq | C39 is violated: a code of another length gets distance -1 and is returned before every code of the right length. |

### C40 — Product quantizer encodes to the nearest codewords and serializes faithfully

Status: **partial**. Modelled as: codebooks as lists. Proof: nearest codeword, round trip, violated on truncation.
Nearest codewords, decode dimension and errors, serialize round trip proved. Violated: every truncation after the header panics; more than 256 codewords accepted from data so codes wrap.
Proofs in `Thm/Any3.lean`, `Thm/ProductQuant.lean`.

| Theorem | Axioms | Says |
|---|---|---|
| `PQuant.C40_any_wrap_violated` | pq | C40 is violated by every quantizer read from data with more than 256 codewords: no code is ever 256 or more, so a part whose nearest codeword is the one numbered `256 * q + r` is encoded as the one numbered `r`. |
| `PQuant.C40_encode_nearest` | pcq | C40: a vector is encoded by one code per subspace, each naming a codeword at least as near to the subvector as every other codeword. |
| `PQuant.C40_decode` | pq | C40: decoding codes that name codewords gives a vector of the original dimension whose subvectors are those codewords. |
| `PQuant.C40_decode_errors` | pcq | C40: decoding anything else is an error, never a crash. |
| `PQuant.C40_roundtrip_nearest` | pcq | C40: reconstructing an encoded vector gives a vector of the same dimension made of nearest codewords. |
| `PQuant.C40_serialize_roundtrip` | pq | C40: codebooks written and read back are identical, bit for bit, whatever follows them. |
| `PQuant.C40_truncated_panics_violated` | pcq | C40 is violated: every proper prefix of serialized codebooks that still has the sixteen bytes of the header makes reading panic. |
| `PQuant.C40_short_header_partial` | p | C40 (partial): data without a whole header is an error. |
| `PQuant.C40_too_many_codewords_violated` | p | C40 is violated for codebooks read from data: a number of codewords above 256, which `NewProductQuantizer` refuses, is accepted, and then the nearest codeword 256 is encoded as 0. |

### C41 — Graph edges always join existing nodes

Status: **partial**. Modelled as: node and edge tables with foreign keys. Proof: inductive invariant.
Nodes and edges stay consistent when every statement runs on a connection with foreign keys on; a delete on a pooled connection without the pragma leaves dangling edges (C41 violated).
Proofs in `Thm/Any2.lean`, `Thm/GraphStore.lean`.

| Theorem | Axioms | Says |
|---|---|---|
| `Graph.C41_any_dangling_violated` | pq | With the constraint off, deleting any node that an edge joins leaves that edge without its end. |
| `Graph.C41_edges_join_stored_nodes_partial` | pq | C41: over every history of single and batch operations with foreign keys enforced, each edge joins stored nodes and identifiers are unique. |
| `Graph.C41_delete_removes_incident_edges_partial` | pq | C41: deleting a stored node removes that node and exactly its incident edges. |
| `Graph.C41_batch_delete_removes_incident_edges_partial` | pq | C41: the same for a batch of deletions; ids that are not stored take nothing along. |
| `Graph.C41_other_operations_keep_edges` | pq | C41: deleting an unknown node reports an error and changes nothing; writing a node changes no edge. |
| `Graph.C41_unenforced_delete_keeps_edges_violated` | p | C41: on a pooled connection that never received the pragma no delete removes any edge … |
| `Graph.C41_dangling_edge_violated` | pq | … so a history with one such statement ends with an edge to nowhere. |

### C42 — Neighbors returns exactly the nodes within the depth

Status: **partial**. Modelled as: breadth-first search over edge lists. Proof: sound and complete for walks of bounded length.
Exact for every graph and depth without a limit; the limit is applied to the visited nodes before the type filter (C42_limit_before_types_partial), so a limited filtered search can miss matching neighbours (C42_limit_with_type_filter_violated).
Proofs in `Thm/Any3.lean`, `Thm/GraphTraverse.lean`.

| Theorem | Axioms | Says |
|---|---|---|
| `Graph.C42_any_late_violated` | pcq | C42 is violated in every graph: with a limit and node types the answer is what the types leave of the first `limit` nodes met, so a node of a wanted type that is met later is left out even when fewer than `limit` nodes are returned. |
| `Graph.C42_neighbors_exact_partial` | pcq | C42: with no limit, `Neighbors` returns each stored node of a wanted type other than the start that a walk of at most depth allowed edges reaches, exactly once, and nothing else. |
| `Graph.C42_limit_counts_partial` | pcq | C42: with a limit and no filter on node types, `Neighbors` returns the first `limit` of the nodes it returns without a limit, so min(limit, all) of them. |
| `Graph.C42_limit_before_types_partial` | pcq | C42: with a limit and a filter on node types the limit is applied first: `Neighbors` returns the nodes of a wanted type among the first `limit` nodes it would return without limit and without the filter. |
| `Graph.C42_unknown_direction_is_error` | pq | C42: an unknown direction is an error. |
| `Graph.C42_limit_with_type_filter_violated` | pq | C42: the limit is counted before the type filter, so a wanted neighbour within the limit can be left out. |

### C43 — ShortestPath returns a shortest path

Status: **proved**. Modelled as: breadth-first search with path bookkeeping. Proof: minimality.
Proofs in `Thm/GraphTraverse.lean`.

| Theorem | Axioms | Says |
|---|---|---|
| `Graph.C43_shortest_path` | pcq | C43: `ShortestPath` always answers. When a directed walk joins two different stored nodes it returns a chain of stored nodes and edges between them with no more hops than any walk, the distance being the number of edges and the weight their sum; when there is none it says so. |
| `Graph.C43_unknown_start` | pcq | C43: a start that is not stored is never the start of a path. |

### C44 — Connected decides reachability within the depth

Status: **proved**. Modelled as: undirected search. Proof: equivalence with bounded walks.
Proofs in `Thm/GraphTraverse.lean`.

| Theorem | Axioms | Says |
|---|---|---|
| `Graph.C44_connected_decides_reachability` | pcq | C44: `Connected` always answers, and the answer is true exactly when an undirected walk of at most the given depth (6 when none is given) joins the two. |

### C45 — PageRank scores are bounded and conserve mass

Status: **proved**. Modelled as: rational iteration. Proof: induction on iterations.
Proofs in `Thm/GraphAlgo.lean`.

| Theorem | Axioms | Says |
|---|---|---|
| `Graph.C45_pagerank_bounds_and_mass` | pcq | C45: for every graph, damping factor and number of iterations, `PageRank` lists every stored node exactly once in descending score; each score is at least (1-d)/n, the scores sum to at most one, and to exactly one when every node has an outgoing edge. |

### C46 — Communities partition the nodes

Status: **proved**. Modelled as: label propagation with arbitrary order. Proof: partition.
Proofs in `Thm/GraphAlgo.lean`.

| Theorem | Axioms | Says |
|---|---|---|
| `Graph.C46_communities_partition` | pcq | C46: whatever order maps are visited in, every stored node is in exactly one community, exactly once, and the communities hold nothing else. |

### C47 — Predicted edges are new, ranked and within topK

Status: **proved**. Modelled as: candidate enumeration. Proof: membership.
Proofs in `Thm/GraphAlgo.lean`.

| Theorem | Axioms | Says |
|---|---|---|
| `Graph.C47_predicted_edges` | pcq | C47: for every graph, similarity function and limit, `PredictEdges` returns the best `topK` (ten when not positive) of the pool holding, once each, exactly the stored nodes other than the source that no edge joins to it and whose score is above one half, best first and with the score the graph determines. |
| `Graph.C47_unknown_source` | pcq | C47: an unknown source is an error. |

### C48 — Graph statistics count nodes, edges and components

Status: **proved**. Modelled as: component search. Proof: count of classes.
Proofs in `Thm/Counts.lean`, `Thm/GraphTraverse.lean`.

| Theorem | Axioms | Says |
|---|---|---|
| `Graph.C48_density` | pcq | C48: the density is the number of stored edges over the number of ordered pairs of different nodes, and 0 when there is no such pair. |
| `Graph.C48_statistics_count_components` | pcq | C48: the statistics count the stored nodes and edges, and the component count is the number of classes of undirected reachability: there are that many nodes no two of which are connected, and every node is connected to one of them. |
| `Graph.C48_empty_graph` | pcq | C48: the empty graph has no components. |

### C49 — Graph batches report every item and keep the search index in step

Status: **partial**. Modelled as: batch fold. Proof: count identity; index violated.
Single operations keep the index in step; batches change the tables without touching the index.
Proofs in `Thm/GraphStore.lean`.

| Theorem | Axioms | Says |
|---|---|---|
| `Graph.C49_node_batch_accounts_partial` | pcq | C49: a node batch that commits reports every item, counts exactly the valid ones as written, and leaves at every id the last valid item of the batch or the row that was there; edges stay. If it does not commit nothing changes. |
| `Graph.C49_edge_batch_accounts_partial` | pcq | C49: the same account for an edge batch. |
| `Graph.C49_delete_batch_accounts_partial` | pq | C49: a batch of deletions counts each deleted row as a success and everything else as a failure, and removes exactly the named rows. |
| `Graph.C49_mixed_batch_accounts_partial` | pq | C49: a mixed batch is its four parts in a fixed order in one transaction: all of them or, if it does not commit, nothing; its counts add up to the number of items. |
| `Graph.C49_batch_is_one_by_one_partial` | pq | C49: with no vector index a batch is the same as writing its nodes one by one. |
| `Graph.C49_batches_skip_the_index_violated` | pq | C49: no batch ever changes the vector index … |
| `Graph.C49_index_out_of_step_violated` | pq | … so a node written in a batch is missing from it although one written singly is there, and a deleted one stays. |
| `Graph.C49_single_operations_keep_index_in_step` | pq | C49: single writes and deletes keep the index in step with the table. |

### C50 — Graph export and import round-trip

Status: **partial**. Modelled as: format records. Proof: JSON round trip; GraphML and GEXF violated.
JSON: proved for every history with foreign keys enforced (nil and empty property maps are identified). GraphML and GEXF: proved when texts are XML characters, edges carry no vector (GEXF: nor properties) and weights have six decimals (GraphML). Violated otherwise: edge vectors are lost in GraphML and GEXF and edge properties in GEXF for every graph; small weights and control characters change. Assumed: JSON libraries read back what they wrote (Reads).
Proofs in `Thm/Any3.lean`, `Thm/GraphExport.lean`.

| Theorem | Axioms | Says |
|---|---|---|
| `Graph.C50_any_weight_violated` | pcq | C50 is violated by every edge whose weight has more than six decimals: whatever graph is exported to GraphML, the weights that come back are whole multiples of a millionth and never zero. |
| `Graph.C50_json_round_trip_partial` | pcq | C50 (JSON): after every history with foreign keys enforced, exporting the graph as JSON and importing it into an empty store reports success and restores every node and edge with all its fields. |
| `Graph.C50_graphml_round_trip_partial` | pcq | C50 (GraphML, guarded): the round trip restores the graph when every text passes through XML, no edge carries a vector and every edge weight has at most six decimals. |
| `Graph.C50_gexf_round_trip_partial` | pcq | C50 (GEXF, guarded): the round trip restores the graph when every text passes through XML and no edge carries a vector or properties. |
| `Graph.C50_edge_fields_lost_violated` | pcq | C50: whatever graph is exported, no edge that comes back from GraphML or GEXF carries a vector, and none that comes back from GEXF carries properties. |
| `Graph.C50_graphml_changes_values_violated` | pcq | C50: in GraphML a weight of 1/10000000 comes back as 1, and a control character in a text comes back as another. |
| `Graph.C50_failed_import_is_reported` | pq | An import whose second transaction fails reports failure but leaves the nodes behind. |

### C51 — Graph vector index finds every node

Status: **partial**. Modelled as: graph HNSW insertion. Proof: violated; partial soundness.
Violated: a node drawn at a level above the entry's becomes the entry before it is connected and is the only node found from then on (C51_higher_level_isolates_violated, for every index). Proved: soundness for all histories; completeness for at most 17 distinct ids whose later adds are drawn at level 0 and whose names do not clash with the '_expanded' marker. Missing: completeness for larger indexes (false in general).
Proofs in `Thm/GraphHnsw.lean`.

| Theorem | Axioms | Says |
|---|---|---|
| `GHnsw.C51_search_sound` | pcq | C51 (soundness): after every history of adds and removes, with any level choices, a search returns only ids that are in the index, each once, with the similarity to the vector stored last, best first, and at most as many as asked for. |
| `GHnsw.C51_higher_level_isolates_violated` | pcq | C51: whenever a new id is added at a level above the entry's, it becomes the entry before it is connected, ends up with no connections, and from then on is the only node that any search finds, however many nodes the index holds. |
| `GHnsw.C51_finds_every_node_violated` | pcq | The same on two nodes: the first node is lost although the query equals its vector. |
| `GHnsw.C51_small_index_finds_every_node_partial` | pcq | C51 (completeness, guarded): an index of at most 17 distinct ids built by adds of which all but the first are drawn at level 0 returns every id when asked for as many as it holds, with the similarity to its last vector. No id may be another id followed by "_expanded". |

### C52 — Graph hybrid search ranks consistently

Status: **partial**. Modelled as: score combination. Proof: order, bound, distinctness.
Ranking, distinctness and limit are proved outright; the weights in force may be up to 0.001 off one (C52_weights_sum_violated).
Proofs in `Thm/GraphHybrid.lean`, `Thm/Wider.lean`.

| Theorem | Axioms | Says |
|---|---|---|
| `Graph.C52_hybrid_search_ranks_partial` | pcq | C52 (ranking): for every graph, query, index answer and sort, hybrid search answers with the best `TopK` (all of them when no limit is given) of a pool that holds, once each, exactly the stored nodes that match the vector or are within reach of the start, best combined score first. |
| `Graph.C52_weights_sum_partial` | pcq | C52 (weights): the weights in force sum to one when none are given or when they are more than 0.001 off, and are never more than 0.001 off. |
| `Graph.C52_weights_sum_violated` | pcq | C52: weights that are only slightly off are used as they are. |
| `Graph.C52_any_weights_violated` | pcq | C52: all weights whose sum is off by at most 0.001 are used as they are, so what is in force does not sum to one. |

### C53 — Radius search finds exactly the points inside the circle

Status: **partial**. Modelled as: grid index. Proof: violated (re-insert, longitude span); soundness partial.
Partial: exact for the cells that are looked at, complete on the meridian of the centre and on the equator. Violated near the poles, across longitude 180, and after a known id is inserted again.
Proofs in `Thm/Details3.lean`, `Thm/Geo.lean`, `Thm/GeoAny.lean`.

| Theorem | Axioms | Says |
|---|---|---|
| `Geo.C53_units` | pcq | C53: a kilometre is a thousand metres and a mile 1.60934 kilometres, both ways. |
| `Geo.C53_inclusive` | pq | C53: the ends count: a hit of a search by radius is a point found in the cells looked at whose distance is at most the radius, and its distance is given in the unit of the search. |
| `Geo.C53_exact_partial` | pcq | C53, proved part: after every history without re-insertion of a known id, the radius search returns, nearest first and each once, exactly the known points that are within the radius and whose grid cell is among the cells looked at. Missing: that the cells looked at contain the whole circle, see `C53_pole_violated`. |
| `Geo.C53_complete_partial` | pcq | C53, proved part: with the real distance no point within the radius is lost because of its latitude; so on the meridian of the centre, and on the equator, the radius search is exact: every known point within the radius is returned. |
| `Geo.C53_pole_violated` | pcq | C53 is violated near the poles: the point at the pole, stored under longitude 10, is at distance 0 from the centre and is not found by a search of radius 1 km. |
| `Geo.C53_antimeridian_violated` | pcq | C53 is violated at longitude 180: the same place stored under longitude -180 is not found. |
| `Geo.C53_reinsert_violated` | pcq | C53 is violated when a known id is inserted again: the point is found at its old place. |
| `Geo.C53_moved_violated` | pcq | **C53, violated.** In every index: a point that is inserted and then inserted again at another place is still found at the place it left, by every search around that place. Deleting it does not help when the new place is in another cell. |

### C54 — Nearest-neighbour geo search is exact

Status: **proved**. Modelled as: sort all points. Proof: exactness.
Proofs in `Thm/Counts.lean`, `Thm/Geo.lean`.

| Theorem | Axioms | Says |
|---|---|---|
| `Geo.C54_size` | pq | C54: `Size` is the number of ids that were inserted and not removed since, for every history. |
| `Geo.C54_points` | pq | C54: `GetPoint` answers with the coordinates of the last insertion that was not deleted, and `Size` counts the ids; for every history, re-insertions included. |
| `Geo.C54_knn` | pcq | C54: for every history, the nearest neighbour search answers with the `k` nearest known points, nearest first, with their distances; it is an error only for an invalid centre or `k ≤ 0`. |

### C55 — Bounding-box and polygon searches are exact

Status: **partial**. Modelled as: grid index on integers/rationals. Proof: exactness for fresh inserts.
Partial: boxes are exact for every history without re-insertion, polygons for every history. Violated for boxes after a known id is inserted again.
Proofs in `Thm/Geo.lean`, `Thm/Wider.lean`.

| Theorem | Axioms | Says |
|---|---|---|
| `Geo.C55_box_partial` | pcq | C55, boxes, proved part: after every history without re-insertion of a known id, the bounding-box search returns exactly the known points inside the box, each once. |
| `Geo.C55_reinsert_violated` | pcq | C55 is violated when a known id is inserted again: the box around the old place still finds it. |
| `Geo.C55_polygon` | pcq | C55, polygons: for every history, the polygon search returns each once exactly the known points for which an odd number of edges is hit by the ray going north; fewer than three vertices are an error. The bounding box that is tried first loses nothing. |
| `Geo.C55_any_reinsert_violated` | pq | C55: inserting never removes anything from a cell, so a point found by a box is found by it after every further insert, also when its own id is inserted again somewhere else. |

### C56 — The router picks the best route and only above threshold

Status: **partial**. Modelled as: strict maximum from zero. Proof: argmax for positive scores; violated otherwise.
Proved for every history of a router without store and with an embedder that does not fail: best similarity, a route that has it, match iff some utterance reaches a positive threshold. Violated with the Euclidean similarity (all scores at most 0, the best starts at 0), after one failed embedding with the cache on (sync.Once keeps nil vectors), and with a store (all utterances share the empty id).
Proofs in `Thm/Router.lean`, `Thm/RouterAll.lean`.

| Theorem | Axioms | Says |
|---|---|---|
| `Router.C56_best_route_partial` | pcq | C56, proved part: for every history of a router without a store whose embedder does not fail, `Route` on a non-empty query returns the best similarity over all utterances (0 if none is positive) and a route that has it, and for a positive threshold it reports a match exactly when some utterance reaches the threshold. Missing: thresholds that are not positive, failing embedders, routers with a store; for each of them see the `_violated` theorems. |
| `Router.C56_euclidean_violated` | pq | C56 is violated with the Euclidean similarity (one of the three offered): all similarities are at most 0, so even a query equal to an utterance, well above the threshold, finds no route. |
| `Router.C56_failed_once_violated` | pcq | C56 is violated after one failure: the embedder fails on the utterance once; later it works, and the route is still never found. |
| `Router.C56_store_violated` | pcq | C56 is violated with a store: only the last utterance of a route is kept and used. |
| `Router.C56_negative_violated` | pcq | C56 is violated with every similarity that is never positive, as the Euclidean one that the package offers: no query finds a route, not even one equal to an utterance and whatever the threshold. |
| `Router.C56_forever_violated` | pq | C56 is violated by a single failure of the embedder: when the vectors of a route are wanted for the first time and embedding an utterance fails, the route is never named again, whatever is asked and however well the embedder works, after every further history that does not remove it. (No store, caching on, as configured by default.) |

### C57 — Route names are unique and a rejected route is not added

Status: **partial**. Modelled as: route list machine. Proof: violated (batch duplicates, failed persist); partial.
Names stay unique for every history whose batches have distinct names; without a store a rejected call changes nothing. Violated by a batch with a repeated name and by a persisting failure, after which the route stays registered.
Proofs in `Thm/Any2.lean`, `Thm/HybridRouter.lean`, `Thm/Router.lean`, `Thm/RouterAll.lean`.

| Theorem | Axioms | Says |
|---|---|---|
| `Router.C57_any_batch_violated` | pq | A batch with two routes of one new name is accepted by every router, and both are registered. |
| `Router.C57_any_persist_violated` | pq | When persisting fails, every new route stays registered although `Add` reports the failure, and every later attempt is refused as a duplicate. |
| `Router.C57_twice_violated` | pq | C57 is violated: a batch may hold two routes of one name; both are registered, in every router where the name is free. |
| `Router.C57_names_partial` | pq | C57, proved part (names): after any history, with or without a store and with any failures, no two routes share a name, provided no batch names a route twice (else `C57_batch_violated`). |
| `Router.C57_rejected_partial` | pq | C57, proved part (rejection): without a store, an `Add`, `AddBatch` or `Remove` that returns an error leaves the router as it was, and one that succeeds adds exactly the given routes, or removes exactly the named one. With a store a failure while persisting leaves the route registered (`C57_persist_violated`). |
| `Router.C57_batch_violated` | pcq | C57 is violated by a batch that names a route twice: both are registered. |
| `Router.C57_persist_violated` | pcq | C57 is violated when persisting fails: `Add` returns an error and the route is registered; trying again says it exists already. |
| `Router.C57_unsaved_violated` | pq | C57 is violated whenever persisting fails: `Add` of a route that is otherwise acceptable returns an error and the route is registered; every further attempt says that it exists already. |

### C58 — A hybrid match always names a route

Status: **partial**. Modelled as: combination over rationals. Proof: proof for alpha in [0,1] and positive threshold.
Proved for positive thresholds and every state of both routers; violated for threshold 0 (match without a route).
Proofs in `Thm/Router.lean`, `Thm/RouterAll.lean`.

| Theorem | Axioms | Says |
|---|---|---|
| `Router.C58_named_partial` | pcq | C58, proved part: for a positive threshold (and any weight), a hybrid match has a combined score of at least the threshold and names a route of the dense or the sparse router. For every state of both routers. Without a positive threshold see `C58_threshold_violated`. |
| `Router.C58_threshold_violated` | pcq | C58 is violated for a threshold of 0: with no routes at all a match is reported, naming none. |
| `Router.C58_nothing_violated` | pcq | C58 is violated by every threshold that is not positive: when neither router finds anything, a match is reported that names no route. |

### C59 — Embedding caches and batches are transparent

Status: **proved**. Modelled as: goroutine result messages in any order. Proof: permutation independence.
Proved for all arrival orders, all cache contents and all map iteration orders.
Proofs in `Thm/Router.lean`.

| Theorem | Axioms | Says |
|---|---|---|
| `Router.C59_batch` | pq | C59: for every order in which the goroutines deliver, the batch returns the vector of the i-th text at position i, and fails exactly when some text cannot be embedded. |
| `Router.C59_cached` | pq | C59: a cached embedder gives what the wrapped one gives (when that does not contradict itself), and keeps its cache right. |
| `Router.C59_cached_batch` | pq | C59: a batch of the cached embedder returns the right vector at every position, whatever is cached, for all iteration orders of the map and whether the wrapped batch call works or not; and the cache stays right. The wrapped embedder must be one that answers a batch like single calls (`hb`) and a text always the same way (`he`). |

### C60 — Memory banks are isolated

Status: **partial**. Modelled as: bank metadata and recall filters. Proof: violated; partial for vector recall.
Partial: proved for all histories without the user key bank_id and with the keyword strategy off or no query vector. Violated by the keyword strategy (HybridSearch ignores the filter in its full-text part) and by user metadata that sets bank_id.
Proofs in `Thm/Details3.lean`, `Thm/Hindsight.lean`, `Thm/HindsightAny.lean`.

| Theorem | Axioms | Says |
|---|---|---|
| `Hindsight.C60_asked` | pq | C60: how many results a recall asks the store for: the strategy's number, else the request's, else ten; recall by time asks for five times as many. |
| `Hindsight.C60_isolation_partial` | pcq | C60, proved part: for every history of retentions and bank operations in which the user's own metadata does not use the key `bank_id`, every recalled memory was last retained into the bank asked for, for all orders in which the strategies finish; as long as the keyword strategy is off or there is no query vector. With it see `C60_keyword_violated`. |
| `Hindsight.C60_keyword_violated` | pcq | C60 is violated by the keyword strategy (on by default): a memory of another bank is recalled. |
| `Hindsight.C60_metadata_violated` | pcq | C60 is violated by metadata that uses the key `bank_id`: a memory retained into one bank is recalled from another. |
| `Hindsight.C60_any_keyword_violated` | pcq | C60 is violated for every state: with the keyword strategy (on by default) whatever the hybrid search of the store proposes is recalled, also rows of other banks; and the hybrid search proposes records regardless of the bank (`C12_any_scope_violated`). For all orders in which the strategies finish and maps are visited. |

### C61 — Recall fusion ranks by reciprocal rank and lists each memory once

Status: **proved**. Modelled as: fusion fold. Proof: score and distinctness.
Proved for all arrival orders and map orders, given stores whose searches return distinct ids (C77), and no user reranker.
Proofs in `Thm/Hindsight.lean`.

| Theorem | Axioms | Says |
|---|---|---|
| `Hindsight.C61_fusion` | pcq | C61: with more than one strategy (and no reranker) recall lists each found memory once, scored by the sum over the strategies of 1/(60 + rank), best first, cut to `TopK`; for every order in which the strategies finish and every iteration order of the maps. |
| `Hindsight.C61_single` | pcq | C61, one strategy: the results of that strategy, best first, cut to `TopK`. |

### C62 — Auto-retention fires on schedule with the window in order

Status: **partial**. Modelled as: counter machine, history window. Proof: counter theorem; order violated.
Partial: the schedule and the window as a set are proved for all histories and schedules; violated: the window is passed newest first, and a delayed extraction sees later messages.
Proofs in `Thm/Counts.lean`, `Thm/Hindsight.lean`, `Thm/HindsightAny.lean`.

| Theorem | Axioms | Says |
|---|---|---|
| `Hindsight.C62_config` | pcq | C62: whatever configuration is given, the window and the trigger are positive; a value that is positive, the switch and the roles are taken over as they are, and without a configuration retention is off. |
| `Hindsight.C62_trigger_partial` | pcq | C62, proved part: with auto-retention on, after every history of messages and every schedule of the background extractions, the number of extractions started is the number of counted messages divided by `TriggerEvery`. |
| `Hindsight.C62_window_partial` | pcq | C62, proved part: an extraction receives exactly the last `WindowSize` messages that its session has when it runs (in the opposite order, see `C62_order_violated`). |
| `Hindsight.C62_order_violated` | p | C62 is violated: whenever the window has two or more (distinct) messages the extractor gets them newest first. |
| `Hindsight.C62_delay_violated` | p | C62 is violated in another way: an extraction that is delayed sees later messages, and misses the ones it was fired for when the window is small. |
| `Hindsight.C62_any_delay_violated` | pcq | C62 is violated for every state: an extraction that runs after as many later messages of the session as the window holds misses the message it was started for. |

### C63 — Banks survive a restart

Status: **partial**. Modelled as: bank persistence. Proof: violated.
Partial: id and name survive; violated: disposition and background are lost for every bank and Observe then panics; an entity named like the bank makes it disappear.
Proofs in `Thm/Hindsight.lean`, `Thm/HindsightAny.lean`.

| Theorem | Axioms | Says |
|---|---|---|
| `Hindsight.C63_restart_partial` | pq | C63, proved part: a bank that was created under a non-empty id, was not deleted, and whose id is not the name of a retained entity is found after any later operations and a restart, under its id and name. Missing: the description, the background and the disposition (see `C63_disposition_violated`). |
| `Hindsight.C63_disposition_violated` | pq | C63 is violated: after a restart no bank has a disposition or a background. |
| `Hindsight.C63_observe_violated` | pcq | C63 is violated further: after a restart `Observe` panics as soon as it finds a pattern in a bank that was stored. |
| `Hindsight.C63_entity_violated` | p | C63 is violated further: a memory that mentions an entity named like the bank id makes the bank disappear at the next restart. |
| `Hindsight.C63_any_entity_violated` | pcq | C63 is violated for every state: when a memory names an entity like the id of a bank, the bank is gone after the next restart, even if the memory itself was refused. |

### C64 — Observation confidence is a probability

Status: **proved**. Modelled as: rational confidence formula. Proof: bounds.
Proofs in `Thm/Counts.lean`, `Thm/Hindsight.lean`.

| Theorem | Axioms | Says |
|---|---|---|
| `Hindsight.C64_sources` | pcq | C64: every observation is about the bank asked, rests on at least two mentions in the memories recalled, names only these as its sources, and its confidence is that of the number of mentions. |
| `Hindsight.C64_range` | pcq | C64: every confidence that pattern detection assigns lies between 0.1 and 1, for every bank and every order of the entities. |
| `Hindsight.C64_value` | pcq | C64, the value: the confidence grows by 0.1 per memory up to 0.9, is lowered by a fifth for a sceptical bank and raised by a tenth for a credulous one, and stays within 0.1 and 1. |
| `Hindsight.C64_disposition` | pcq | C64, traits: a disposition is accepted exactly when every trait is between 1 and 5. |

### C65 — Chunking covers the document

Status: **proved**. Modelled as: word windows. Proof: coverage and overlap by strong induction.
Proofs in `Thm/RagChunk.lean`.

| Theorem | Axioms | Says |
|---|---|---|
| `Rag.C65_defaults` | pq | C65: the options used are valid whatever the caller passes, and a valid choice of the caller is kept. |
| `Rag.C65_cover` | pcq | C65: for every text and every options, the chunks are, line by line, a cut of the line's words into pieces with exactly the overlap in force. |
| `Rag.C65_no_word_lost` | pcq | C65: no word is lost and none is reordered: the text's words, in order, are a subsequence of the words of the chunks read one after the other. |
| `Rag.C65_chunk_bounds` | pcq | C65: every chunk is a run of consecutive words of the text, at least one and at most the chunk size. |
| `Rag.C65_empty` | pcq | C65: there are no chunks exactly when the text has no words, so ingestion refuses only blank texts. |

### C66 — Context packing respects every budget

Status: **proved**. Modelled as: packing loop. Proof: loop invariants.
Proofs in `Thm/RagPack.lean`.

| Theorem | Axioms | Says |
|---|---|---|
| `Rag.C66_defaults` | pcq | C66: after defaults every budget is at least one. |
| `Rag.C66_pack` | pcq | C66: for every ranked chunk list and every options: the packed chunks keep the ranking order, respect the chunk, document and character budgets (the last unless one chunk alone exceeds it), start with the best chunk, and nothing is left out without a budget being the reason. |
| `Rag.C66_nonempty` | pcq | C66: the context is empty only when there are no chunks. |

### C67 — Memory buckets separate users, sessions and namespaces

Status: **partial**. Modelled as: string formatting of bucket ids. Proof: violated; partial for separator-free ids.
Holds for owners whose name has no colon; user a in namespace b:c shares the bucket of user a:b in namespace c (C67_colon_violated).
Proofs in `Thm/Memory.lean`, `Thm/MemoryAll.lean`.

| Theorem | Axioms | Says |
|---|---|---|
| `Memory.C67_resolve_partial` | pcq | C67 for owners whose name contains no colon: two requests resolve to the same bucket only if they address the same memories. Missing: owners with a colon in their name (see `C67_colon_violated`). |
| `Memory.C67_isolation_partial` | pcq | C67: over every history of saves, updates and deletions by owners without a colon in their name, every memory a search returns was last saved under the same scope, owner and namespace that the search asks for. |
| `Memory.C67_colon_violated` | pcq | C67 fails for names with a colon: user `a` searching namespace `b:c` finds what user `a:b` saved in namespace `c`. |
| `Memory.C67_alias_violated` | pcq | C67 fails for every state and query: user `a` asking in namespace `b:c` is answered as user `a:b` asking in namespace `c`. |

### C68 — Expired memories are never found

Status: **partial**. Modelled as: clock parameter. Proof: proof for search; update violated.
An update that does not mention the time to live restarts it and revives expired memories (C68_update_violated). Proved: without updates nothing is found after the time to live; with updates nothing is found later than the time to live after the last write (C68_updates_partial).
Proofs in `Thm/Memory.lean`, `Thm/MemoryAll.lean`.

| Theorem | Axioms | Says |
|---|---|---|
| `Memory.C68_expired_partial` | pcq | C68: after a memory is saved with a time to live, whatever else happens to other memories, no search later than that time returns it. Missing: histories with an update of the memory that does not mention the time to live, which extends it (see `C68_update_violated`). |
| `Memory.C68_updates_partial` | pcq | C68 with updates: a memory saved with a time to live of at most `L` seconds, and updated without mentioning it or with one of at most `L` seconds, is not found later than `L` seconds after the save and the last update. So an update does extend the time to live, but by no more than the time to live in force. |
| `Memory.C68_update_violated` | pcq | C68 fails for updates: an update that does not mention the time to live starts it anew, so the memory is still found after its time; a memory that has already expired comes back. |
| `Memory.C68_revived_violated` | pcq | C68 fails for every stored memory with a time to live, however long ago it expired: an update that mentions nothing makes it live again for its whole time to live. |

### C69 — A failed knowledge update keeps the old knowledge

Status: **partial**. Modelled as: steps with failure oracle. Proof: violated; partial for failures before cleanup.
Items other than the one named are never touched, and failures before the old document is removed keep it; but the old item is removed before the new one is embedded, so any later failure loses it (C69_violated, for every stored item).
Proofs in `Thm/Knowledge.lean`.

| Theorem | Axioms | Says |
|---|---|---|
| `Knowledge.C69_others_partial` | pcq | C69, proved part: whatever call is made, at whatever step it fails (or not), every item other than the one named in the call keeps its document and its chunks. Ranges over all histories of calls and faults. The full C69 (the named item also survives a failure) is false, see `C69_violated`. |
| `Knowledge.C69_early_partial` | pcq | C69, proved part: a save that fails in validation, or before the old item's removal starts, changes nothing. The removal of the document is step 4, so up to there document and chunks are untouched (the graph nodes go at step 3). |
| `Knowledge.C69_validation_partial` | pcq | C69, proved part: an invalid request, or one for which nothing was stored under the id and no step ran, changes nothing. |
| `Knowledge.C69_violated` | pcq | C69 is violated for every stored item: a valid save of new content whose embedding call fails (step 5) leaves nothing under the id, neither document nor (with cascades) chunks. |

### C70 — Lexical search ranks better matches higher

Status: **partial**. Modelled as: score from rank. Proof: violated; default TopK violated.
Order and scores are right on the fused path; the direct full-text search and the lexical memory search give better matches lower scores, and the tool search without TopK returns nothing.
Proofs in `Thm/Any2.lean`, `Thm/Lexical.lean`.

| Theorem | Axioms | Says |
|---|---|---|
| `Lexical.C70_any_negative_topk_violated` | pcq | Every keyword question that finds anything panics when the number of answers asked for is negative. |
| `Lexical.C70_text_only_partial` | pcq | C70, proved part: text-only search returns the hits in the order of the full-text rank, best first, each with a strictly lower score than the one before, at most `TopK` (10 if not positive). |
| `Lexical.C70_fts_violated` | pcq | C70 is violated by the direct full-text search: for any two matches, the better one (more negative `bm25`) gets the lower score. |
| `Lexical.C70_fts_threshold_violated` | pcq | With a threshold the direct search drops the best match and keeps the worse one. |
| `Lexical.C70_memory_violated` | pcq | C70 is violated by the lexical memory search in the same way. |
| `Lexical.C70_no_topk_violated` | pcq | C70 is violated by the tool search without `TopK`: there are matches, the answer is empty. |
| `Lexical.C70_negative_topk_violated` | pcq | A negative `TopK` makes it panic. |
| `Lexical.C70_candidates_partial` | pcq | C70, proved part: with a positive `TopK` the tool search returns, of the hits of all queries (or of the first query when it alone has `TopK` hits), each id once with its best weighted score, the `TopK` best ones, in descending score and ties by id. |

### C71 — Knowledge hits group chunks by document

Status: **proved**. Modelled as: grouping fold. Proof: grouping specification.
Proofs in `Thm/Knowledge.lean`.

| Theorem | Axioms | Says |
|---|---|---|
| `Knowledge.C71_groups` | pcq | C71: the grouped hits list each document once (keyed by the chunk when it has no document), with the best of its chunks' scores, exactly the ids of its chunks and entities, each once, in descending score with ties by id; and the order is unique. For all hits and every sort that sorts. |
| `Knowledge.C71_missing_document` | pcq | C71: the call fails exactly when some hit's document cannot be loaded. |

### C72 — Generated chunk and bucket identifiers do not collide

Status: **proved**. Modelled as: decimal padding. Proof: injectivity.
Proofs in `Thm/RagChunk.lean`.

| Theorem | Axioms | Says |
|---|---|---|
| `Rag.C72_chunk_ids` | pcq | C72: chunk identifiers determine the document and the position, for all document ids (any characters) and all positions (also beyond three digits). |
| `Rag.C72_document_chunks` | pcq | C72: the ids of a document's chunks are pairwise different. |
| `Rag.C72_kinds` | pcq | C72: chunk, document and entity nodes never share an identifier. |

### C73 — Rerankers reorder without inventing or duplicating results

Status: **partial**. Modelled as: reranker functions. Proof: permutations and monotonicity.
Normalization, keyword, fusion, diversity and custom rerankers are proved to rearrange; hybrid under the guard that its members rearrange. Violations: max<min reverses the order, the diversity reranker ignores similarities below -1, the hybrid panics when a member drops results.
Proofs in `Thm/Details.lean`, `Thm/Rerank.lean`.

| Theorem | Axioms | Says |
|---|---|---|
| `Rerank.C73_overlap` | pcq | C73: the overlap of a text with a question is the share of the words of the question that are words of the text: between 0 and 1, and for a question with words 0 exactly when none is and 1 exactly when all are. |
| `Rerank.C73_custom_none` | pq | C73: without a function the results keep their scores and are put in order. |
| `Rerank.C73_normalize` | pcq | **C73, normalization.** For every list of results and every range with `min < max`, normalizing rearranges the results, best first, changes the scores by a strictly increasing function (so their order does not change), and puts them into `[min, max]`; unless all scores are equal the best gets `max` and the worst `min`. |
| `Rerank.C73_normalize_reversed_violated` | pcq | **C73, violated.** With `max < min` the order is reversed: what was worse is better afterwards. |
| `Rerank.C73_keyword` | pcq | **C73, keyword match.** The keyword reranker rearranges its input, best first, and multiplies each score by one plus the boost for every word of the query found in the content. |
| `Rerank.C73_rrf` | pcq | **C73, reciprocal rank fusion.** The fusion rearranges its input, best first; a result at position `i` (from 0) gets `vw/(k+i+1) + tw/(k+rank i)`, where the ranks are a numbering of the results from 1 in the order of their word overlap with the query. |
| `Rerank.C73_rrf_dominance` | pcq | **C73.** So, when the constant and the weights are not negative, a result that is earlier and overlaps more gets at least as high a score. |
| `Rerank.C73_diversity` | pcq | **C73, diversity.** The diversity reranker returns exactly its input in another order, scores included; and for a similarity within [-1, 1] and a trade-off within [0, 1] each result is the best of those that follow it by relevance to the first result's vector against similarity to those before it. |
| `Rerank.C73_diversity_euclid_violated` | pcq | **C73, violated.** With a similarity below -1 (negated distances) the values are not looked at: the order of the input is kept although the second result is farther from the query than the third. |
| `Rerank.C73_custom` | pq | **C73, custom.** A reranker with a scoring function rearranges its input, best first, with the scores the function gives. |
| `Rerank.C73_hybrid_partial` | pcq | **C73 (partial), hybrid.** When the results have different identifiers and every reranker works and rearranges its input, the hybrid reranker rearranges it too, best first, and gives each result the weighted mean of the scores it got from the rerankers that have a weight (its old score if these weights are not positive in total). |
| `Rerank.C73_hybrid_panic_violated` | pcq | **C73, violated.** A hybrid reranker panics whenever one of its rerankers, weighted like all of them, returns fewer results than it was given, as a custom reranker that drops poor results does. |

### C74 — Diversity selection returns distinct results within K

Status: **partial**. Modelled as: selection loops. Proof: sublist, bound.
All four strategies return different candidates, at most TopK, and MMR and distance start with the best; greedy choice proved. Violations: random can miss the best and panics for negative TopK, DPP returns nothing when no score is positive, lambda 0 is taken for 1/2, TopK <= 0 gives one result.
Proofs in `Thm/Details.lean`, `Thm/Diversity.lean`, `Thm/Wider.lean`.

| Theorem | Axioms | Says |
|---|---|---|
| `Diversity.C74_distance_default` | pcq | C74: when no least distance is given it is a tenth. |
| `Diversity.C74_mmr` | pcq | **C74, MMR.** For TopK ≥ 1 the diversification by maximal marginal relevance starts with the first candidate, returns different members of the candidates, exactly TopK of them when there are so many, and every further one is at its place the best of all not yet chosen. |
| `Diversity.C74_lambda_zero_violated` | pcq | **C74, violated.** A trade-off of 0, documented as the greatest diversity, is the trade-off 1/2. |
| `Diversity.C74_distance` | pcq | **C74, distance.** For TopK ≥ 1 the diversification by distance keeps candidates in their order, starting with the first, at most TopK, no two nearer than the least distance; a candidate left out is nearer to a kept one, or TopK are kept. |
| `Diversity.C74_random` | pcq | **C74, random.** For TopK ≥ 0 the random diversification returns different members of the first 2·TopK candidates, exactly TopK when there are so many, best first — when all are returned they are the candidates as they came. |
| `Diversity.C74_random_best_violated` | pcq | **C74, violated.** The random diversification need not contain the best result. |
| `Diversity.C74_random_panics_violated` | pcq | **C74, violated.** A negative TopK makes the random diversification panic, whatever is stored. |
| `Diversity.C74_nonpositive_violated` | pcq | **C74, violated.** With TopK ≤ 0 (which other searches take for ten) MMR and distance return one result, and determinantal point processes none. |
| `Diversity.C74_dpp` | pcq | **C74, determinantal point process.** When there are more candidates than TopK ≥ 0, the process takes different positions among the first hundred, at most TopK, each time the one of greatest worth (the first of them), which is positive; it takes fewer than TopK only when nothing of positive worth is left. |
| `Diversity.C74_dpp_worth` | pcq | The worth is the score times one minus the squares of the similarities to the chosen ones, where the square root is exact. |
| `Diversity.C74_dpp_best_partial` | pcq | **C74.** When the candidates come best first and the best has a positive score, the process starts with it. |
| `Diversity.C74_dpp_negative_violated` | pcq | **C74, violated.** When no score is positive (a Euclidean store) and there are more candidates than TopK, the process returns nothing at all. |
| `Diversity.C74_search_partial` | pcq | **C74.** A diversified search for TopK ≥ 1 results returns at most TopK different records, all results of a plain search for three times as many; and starts with the best of these unless the method is random or determinantal. |
| `Diversity.C74_any_best_violated` | pq | **C74, violated.** For every list of candidates longer than what is asked for, whichever is the best of them: the random diversification may leave it out. |

### C75 — Multi-vector scores aggregate fields as documented

Status: **partial**. Modelled as: aggregation fold. Proof: specification; id collision violated.
Search: distinct entities, aggregated over fields where the entity was in the field's TopK (missing fields are ignored, errors are hidden, rows with number metadata never found). Ids are unique only under a guard on underscores; re-upsert keeps stale fields; a record without metadata makes entities unreadable.
Proofs in `Thm/MultiVector.lean`, `Thm/MultiVectorAny.lean`.

| Theorem | Axioms | Says |
|---|---|---|
| `MultiVector.C75_aggregate` | pcq | **C75, aggregation.** Maximum, minimum, sum and mean of the scores, for every list of scores. |
| `MultiVector.C75_search_partial` | pcq | **C75, search.** For every store, index, queries and options: a search answers with the TopK (all when no limit is set), best first, of a pool that has each entity found in one of the fields asked for exactly once, with the maximum, minimum, sum or mean of its weighted scores. |
| `MultiVector.C75_complete_partial` | pcq | **C75 (partial).** When the store is searched without an index and TopK is at least the number of rows, what counts for a field is every row in scope of this field that belongs to an entity: nothing is missed. |
| `MultiVector.C75_missing_field_violated` | pcq | **C75, violated.** The mean is taken over the fields where the entity was among the TopK of the field, not over the fields asked for: "a" with the scores 10 and 0 comes before "b" with 9 and 9 when one result is asked for, after it when two are. |
| `MultiVector.C75_errors_hidden_violated` | pcq | **C75, violated.** A search that fails for every field is an empty answer, not an error. |
| `MultiVector.C75_number_metadata_violated` | pcq | **C75, violated.** A row that has a metadata value other than a text cannot be found: it is in no result. |
| `MultiVector.C75_composite_partial` | pcq | **C75, identifiers (partial).** Different pairs of entity and field have different rows when the entity identifiers contain no three underscores and do not end with one, or when the field names contain no underscore. |
| `MultiVector.C75_collision_violated` | pq | **C75, violated.** Different pairs can have the same row: field "b___c" of "a" and field "c" of "a___b", for all texts. |
| `MultiVector.C75_others_kept_partial` | pcq | **C75, writing (partial).** Writing an entity leaves the rows of another entity as they are, under the guard on identifiers. |
| `MultiVector.C75_round_trip_partial` | pcq | **C75, round trip (partial).** An entity with at least one vector that is written to a store where every record has metadata, and that has no vector of a field that is not written again, is read back with the same identifier, content and vectors, and with the same metadata but for the two names used by the library. |
| `MultiVector.C75_stale_field_violated` | pcq | **C75, violated.** Writing an entity again with fewer fields keeps the vector of the field that is gone, for every such row. |
| `MultiVector.C75_stale_read_violated` | p | **C75, violated.** So reading it gives a vector that the entity last written does not have. |
| `MultiVector.C75_overwrite_violated` | p | **C75, violated.** Writing one entity can destroy another. |
| `MultiVector.C75_no_vectors_violated` | pcq | **C75, violated.** An entity without vectors is stored with success, and is not there. |
| `MultiVector.C75_plain_record_violated` | pcq | **C75, violated.** One record without metadata before every record of the entity makes the entity unreadable. |
| `MultiVector.C75_cut_off_violated` | p | **C75, violated.** And one record without metadata after the first record of the entity cuts the rest off. |
| `MultiVector.C75_any_cut_off_violated` | pq | **C75, violated for every store.** A record without metadata hides every field stored after it: the entity is read as if they were not there. |
| `MultiVector.C75_any_overwrite_violated` | pcq | **C75, violated for every store.** Writing the field `c` of the entity `a___b` destroys the entity `a` when its only field is `b___c`, for all texts. |

### C76 — Keyword hits are the rows that currently contain the keyword

Status: **partial**. Modelled as: FTS shadow index with triggers. Proof: violated; partial without replacement.
Exact when ids are not rewritten, or nothing is deleted; nothing is ever missed by queries without NOT. Violated: INSERT OR REPLACE leaves entries behind and a reused row id inherits them.
Proofs in `Thm/Fts.lean`, `Thm/FtsAny.lean`.

| Theorem | Axioms | Says |
|---|---|---|
| `Fts.C76_found_partial` | pq | **C76, nothing missed (partial).** After every history of writes to `embeddings`, the full-text search in one query finds every record whose current text satisfies a query without NOT, when the limit allows, and does not fail. |
| `Fts.C76_fresh_partial` | pcq | **C76, exact (partial).** When no identifier is written twice without being deleted in between, keyword search over `embeddings` is exact, and `HybridSearch` ranks exactly the row identifiers of records whose text satisfies the query. |
| `Fts.C76_upserts_partial` | pq | **C76, exact (partial).** When nothing was ever deleted, keyword search over `embeddings` by one query is exact, however often records were written again. |
| `Fts.C76_stale_violated` | pcq | **C76, violated.** After writing "b" twice and deleting it, the next new record is found by a word it never contained. |
| `Fts.C76_not_violated` | pcq | **C76, violated.** And a query with NOT misses it. |
| `Fts.C76_ghost_violated` | pcq | **C76, violated for every history.** When a new record was written twice and deleted, the next new record is found by every word of the first text of the deleted one, whatever its own text is; and a query that excludes such a word misses it. |

### C77 — Records without an access list inherit their document's

Status: **partial**.
Document access lists are never consulted by SearchWithACL: for every access list the results are the same (C77_violated, C77_ignored_violated).
Proofs in `Thm/Search.lean`.

| Theorem | Axioms | Says |
|---|---|---|
| `Thm.Search.C77_effective_partial` | pq | C77, part: ACL search respects the effective access list of every record that has a list of its own or whose document has none. Missing for the full claim: inheritance from the document, see `C77_violated`. |
| `Thm.Search.C77_violated` | pcq | C77 is violated: a chunk of a restricted document is returned to a caller without principals. |
| `Thm.Search.C77_ignored_violated` | pq | C77 is violated on every store: the answers are the same whatever the documents and their access lists are. |

### C78 — Filtered search returns the K best matching records

Status: **partial**.
The filter is applied after the K best are cut (C78_violated).
Proofs in `Thm/Search.lean`, `Thm/SearchAny.lean`.

| Theorem | Axioms | Says |
|---|---|---|
| `Thm.Search.C78_post_filter_partial` | pcq | C78, part: a filtered search returns exactly those of the K best that match the filter, in order. Missing for the full claim: matching records outside the unfiltered K best are lost, see `C78_violated`. |
| `Thm.Search.C78_violated` | pcq | C78 is violated: with K = 1 the only matching record is not found because a better scored one does not match. |
| `Thm.Search.C78_crowded_violated` | pcq | C78 is violated for every store: when K records of the scope that do not match the filter score higher than every record that does, a search for the K best that match finds nothing, however many match. |

### C79 — Filters made with the builder never panic and mean what was asked

Status: **proved**.
Proofs in `Thm/Filter.lean`.

| Theorem | Axioms | Says |
|---|---|---|
| `Thm.Filter.C79_builder_total` | pcq | C79: a filter made with the filter builder, by any chain of calls with any values, never panics: not when translated to SQL and not when evaluated in memory. |
| `Thm.Filter.C79_builder_meaning` | pcq | C79: the built expression means the conjunction of the conditions in the order called; `Or` joins two non-empty filters with OR, and an empty filter on either side is ignored. |

### C80 — Advanced search returns the K best records that satisfy both filters

Status: **partial**.
Post-filter exact; a pre-filter always fails because the column name is ambiguous in the join (C80_violated).
Proofs in `Thm/FilterSearch.lean`.

| Theorem | Axioms | Says |
|---|---|---|
| `Thm.FilterSearch.C80_post_filter_partial` | pcq | C80, part: without a pre-filter, the answer is the K best scored records of the collection among those that satisfy the post-filter, whatever the nesting of AND, OR and NOT. Missing for the full claim: a pre-filter, see `C80_violated`, and metadata outside the readings of C21. |
| `Thm.FilterSearch.C80_violated` | pcq | C80 is violated by every pre-filter that SQL expresses: the search fails, on every store and for every query. |

### C81 — Context reranking keeps the chunks and starts with the most relevant

Status: **proved**.
Proofs in `Thm/RagPack.lean`.

| Theorem | Axioms | Says |
|---|---|---|
| `Rag.C81_rerank` | pcq | C81: reranking returns chunks of the input (each at most as often as it was given), as many as the budget and the input allow, each unchanged apart from its rerank score, which lies in [0,1]. |
| `Rag.C81_best_first` | pcq | C81: the first chunk of the reranked list has the highest rerank score of all. |
| `Rag.C81_greedy` | pcq | C81: the chunks get the rerank scores described by `Rescored`, and they are chosen one after the other, each time one that is best by relevance weighed against its likeness to the nearest chunk chosen before: no chunk that comes later or is left out would have been better at that place. |

### C82 — Different entities have different graph nodes

Status: **partial**.
Names made of lower-case letters and digits; names that differ only in punctuation such as c++ and c# share a node (C82_violated).
Proofs in `Thm/Any3.lean`, `Thm/RagChunk.lean`.

| Theorem | Axioms | Says |
|---|---|---|
| `Rag.C82_any_violated` | pcq | C82 is violated by every name: inserting a character that is no letter, digit, space, hyphen or underscore anywhere inside it gives another name with the same identifier. |
| `Rag.C82_violated` | pcq | C82: different entity names may share an identifier (punctuation and all letters outside the table are dropped): the node of one is overwritten by the other. |
| `Rag.C82_plain_partial` | pcq | C82 for names made of lower-case letters and digits: different names have different nodes. Missing: names with upper-case letters, blanks and punctuation, which are normalised (see `C82_violated`). |

### C83 — Saving a memory changes no other owner's memories

Status: **partial**.
Memories under other ids are untouched; ids are global, so a save under another owner's id takes it over (C83_violated). The guarded theorem says what is found by search after any history.
Proofs in `Thm/Memory.lean`, `Thm/MemoryAll.lean`.

| Theorem | Axioms | Says |
|---|---|---|
| `Memory.C83_other_ids_partial` | pcq | C83 for different memory ids: a save changes no memory stored under another id. Missing: the same id used by two owners (see `C83_violated`). |
| `Memory.C83_search_partial` | pcq | C83 as seen by the other owner: a save under an id that no memory of the owner has, into another bucket, changes no answer of the owner's searches, whether it succeeds or not. |
| `Memory.C83_violated` | pcq | C83 fails: memory ids are global, so a save by one user under an id another user has taken removes the other user's memory. |
| `Memory.C83_taken_violated` | pcq | C83 fails for every history: once a save of anyone has succeeded under an id, no search of another owner (or namespace) returns a memory of that id, although it had been saved there. |

### C84 — Live memories are found

Status: **partial**.
Exact top K when the bucket holds no expired memory and durations fit 64 bits; in general every live memory found is among the best candidates (C84_live_among_best_partial); expired rows crowd out live ones and huge durations overflow (violation witnesses).
Proofs in `Thm/Memory.lean`, `Thm/MemoryAll.lean`.

| Theorem | Axioms | Says |
|---|---|---|
| `Memory.C84_not_early_partial` | pq | C84: a saved memory is not taken for expired before its time to live is over (up to the second that formatting cuts off), as long as the duration fits 64 bits, and never if it has none. |
| `Memory.C84_overflow_violated` | pcq | C84 fails: a time to live of 300 years overflows and the memory is never found. |
| `Memory.C84_semantic_partial` | pcq | C84 when nothing in the bucket has expired: a semantic search returns exactly the best `topK` memories of the bucket (those stored with a vector), best first. Missing: buckets that hold expired memories (see `C84_crowding_violated`). |
| `Memory.C84_live_among_best_partial` | pcq | C84 with expired memories: the best `topK` of the bucket are taken, live or not, and the answer is the live ones among them, in order, if there is one. |
| `Memory.C84_crowding_violated` | pcq | C84 fails: expired memories are cut to the limit together with live ones and removed afterwards, so a search for the two best returns one although two live memories match. |
| `Memory.C84_too_long_violated` | pcq | C84 fails for every history: a memory saved with a time to live between 9223372037 and 18446744073 seconds (292 to 584 years) is never found, not even right after the save. |

### C85 — A saved knowledge item is exactly what was saved

Status: **proved**.
Proofs in `Thm/Knowledge.lean`, `Thm/KnowledgeDocs.lean`.

| Theorem | Axioms | Says |
|---|---|---|
| `Knowledge.C85_save` | pcq | C85: after a successful save the item is exactly what was saved: title, content, next version, and its chunks are exactly those of the new content (none of the old ones), whatever was stored before. For every state in which each chunk has its document. |
| `Knowledge.C85_update` | pcq | C85 for updates: after a successful update the item has the title and content of the request, or the old ones where it names none, and the next version. When it names one of them the chunks are exactly those of the text now in force, otherwise they are the same as before. |

### C86 — Ingesting a document again replaces its chunks

Status: **partial**.
Exact when the new text has at least as many chunks; otherwise old chunks beyond the new count stay (C86_violated).
Proofs in `Thm/KnowRaceAny.lean`, `Thm/Knowledge.lean`, `Thm/KnowledgeDocs.lean`.

| Theorem | Axioms | Says |
|---|---|---|
| `Knowledge.C86_leftover_violated` | pcq | C86, exactly: ingesting a document again leaves, in every state, the chunks of the new text and all the old ones whose number is beyond them, in this order: a shorter text never replaces the end of a longer one. |
| `Knowledge.C86_reingest_partial` | pcq | C86, proved part: ingesting a document again through `InsertGraphDocument` leaves exactly the chunks of the new text, provided the new text has at least as many chunks as the stored one. Without the proviso it is false, see `C86_violated`. |
| `Knowledge.C86_violated` | pcq | C86 is violated: ingesting the shorter text `z` under the same id succeeds and the chunk `y` of the old text is still stored under the document. |
| `Knowledge.C86_record` | pcq | C86 for the document itself: ingesting it (again) gives it the new title and content and the next version, whatever became of the chunks. |

### C87 — Deleting knowledge removes all of it

Status: **proved**.
Proofs in `Thm/Knowledge.lean`.

| Theorem | Axioms | Says |
|---|---|---|
| `Knowledge.C87_delete` | pcq | C87: a successful delete leaves no document, no chunk and no document or chunk node of the item. |

### C88 — A router with a store keeps its routes

Status: **partial**.
Violated for every history: utterances are written with the empty id, so at most one row survives and a router opened later has at most one route with one utterance (C88_violated); Remove never deletes it (C88_removed_violated). Proved for every history: the route added last is there with its last utterance.
Proofs in `Thm/Router.lean`.

| Theorem | Axioms | Says |
|---|---|---|
| `Router.C88_violated` | pq | C88 is violated by every history: whatever was added, a router opened on the same store has at most one route, with a single utterance. |
| `Router.C88_two_routes_violated` | pcq | C88 is violated: of two routes with two utterances each, a router opened on the same store has one route with one utterance. |
| `Router.C88_removed_violated` | pq | C88 is violated by removal too, after every history: removing a route, whether it is found or not, makes no difference to a router opened later, which has the removed route if it was the last one added. |
| `Router.C88_last_partial` | pcq | C88, proved part: after every history, the route added last (with success) is there after opening again, with the last of its utterances. So the claim holds for a single route with a single utterance. |

### C89 — A function call is complete exactly when its required parameters have values

Status: **partial**.
Proved when no registered pattern is invalid; violated by an invalid pattern on a required parameter.
Proofs in `Thm/Router.lean`, `Thm/RouterAll.lean`.

| Theorem | Axioms | Says |
|---|---|---|
| `Router.C89_complete_partial` | pcq | C89, proved part: if no registered pattern is invalid, a call is complete exactly when every required parameter has a value among the arguments. With an invalid pattern see `C89_violated`. |
| `Router.C89_violated` | p | C89 is violated: a required parameter whose registered pattern does not compile is skipped; the call is reported complete with no value for it. |
| `Router.C89_invalid_violated` | pq | C89 is violated by every registered pattern that does not compile: the parameter gets no value, although one was found for it, and is not reported missing, although it may be required; the rest of the call is what it would be without the parameter. |

### C90 — The dense similarity functions are what they claim to be

Status: **proved**.
Proofs in `Thm/Similarity.lean`.

| Theorem | Axioms | Says |
|---|---|---|
| `Similarity.C90_cosine` | pcq | C90: cosine similarity is symmetric, lies in [-1, 1], is 1 for every vector with itself unless it is zero, and does not change when a vector is scaled by a positive factor. |
| `Similarity.C90_euclidean` | pcq | C90: the Euclidean similarity is symmetric, at most 0, is 0 exactly for equal vectors, is below every number for vectors of different length, and its negation obeys the triangle inequality. |
| `Similarity.C90_dot` | pcq | C90: dot product is symmetric and at most the product of the lengths. |
| `Similarity.C90_same_order` | pcq | C90: on unit vectors of one dimension the three similarities order any two candidates in the same way. |

### C91 — Sparse similarity is a cosine

Status: **proved**.
Proofs in `Thm/Similarity.lean`.

| Theorem | Axioms | Says |
|---|---|---|
| `Similarity.C91_sparse` | pcq | C91: sparse similarity is symmetric, lies in [-1, 1], is 1 for a vector that is not zero with itself, and 0 for vectors without a common term. |
| `Similarity.C91_nonneg` | pcq | With weights that are not negative the similarity is not negative, and it is positive exactly when some term has a positive weight in both. |
| `Similarity.C91_hybrid` | pcq | C91: for a weight between 0 and 1 the hybrid similarity is in [-1, 1] too. |

### C92 — A sparse encoder depends on the corpus it was fitted on

Status: **partial**.
Violated: Fit does not clear earlier IDFs, and an unfitted encoder gives zero weights for every text. The proved parts hold for all histories of fits with a corpus that has a term.
Proofs in `Thm/Any2.lean`, `Thm/Similarity.lean`.

| Theorem | Axioms | Says |
|---|---|---|
| `Similarity.C92_any_refit_violated` | pcq | Fitting again does not forget: a term that only the earlier corpus has keeps its weight from there, while an encoder fitted on the later corpus only gives it the weight of an unknown term. The two differ by the factor the earlier corpus set. |
| `Similarity.C92_any_tfidf_refit_violated` | pcq | The same for TF-IDF: the term is in the vector after fitting again, and absent after fitting the later corpus only. |
| `Similarity.C92_match_partial` | pcq | C92, proved part (matching): for an encoder whose last corpus had at least one term, whatever was fitted before, the similarity of two texts is between 0 and 1 and positive exactly when they share a term. (Parameters as usual: k1 > 0, b in [0, 1].) An encoder that was never fitted, or last on texts without terms, gives 0 always: `C92_unfitted_violated`. |
| `Similarity.C92_unfitted_violated` | pcq | C92 is violated by an encoder that was not fitted: every weight is 0, so a text does not even match itself. For all texts and all positive parameters. |
| `Similarity.C92_fit_partial` | pcq | C92, proved part (fitting): for the terms of the last corpus the IDF depends on that corpus only, whatever was fitted before; so does the average length. |
| `Similarity.C92_refit_violated` | pcq | C92 is violated by fitting again: an encoder fitted on one corpus and then on another weighs a term of the first corpus differently from an encoder fitted on the second one only. |
| `Similarity.C92_tfidf` | pcq | C92: TF-IDF weights fitted on one corpus are not negative, and are 0 exactly for terms that are in every document. |

### C93 — Index distances agree with the similarity functions

Status: **proved**.
Proofs in `Thm/Similarity.lean`.

| Theorem | Axioms | Says |
|---|---|---|
| `Similarity.C93_distances` | pcq | C93: for vectors of the same dimension each index distance is the matching similarity turned round (1 minus the cosine, minus the dot product, minus the negated distance), so the nearest record by distance is the most similar one. |
| `Similarity.C93_cosine_range` | pcq | C93: cosine distance lies between 0 and 2, and is 0 from a non-zero vector to itself. |

### C94 — Deleting a bank removes its memories

Status: **partial**.
Partial: the bank itself is gone; violated: its memories stay and are recalled as before.
Proofs in `Thm/Hindsight.lean`.

| Theorem | Axioms | Says |
|---|---|---|
| `Hindsight.C94_delete_violated` | pcq | C94 is violated: deleting a bank leaves all its memories stored, and every recall answers as before. |
| `Hindsight.C94_gone_partial` | pq | C94, proved part: a deleted bank is not found any more, now and after a restart. |

### C95 — Reflect keeps within its token budget

Status: **proved**.
Proofs in `Thm/Hindsight.lean`.

| Theorem | Axioms | Says |
|---|---|---|
| `Hindsight.C95_budget` | pcq | C95: the context that `Reflect` returns is at most four bytes per token of the budget, is never lengthened, is left whole when it fits, and the reported count never exceeds the budget. |

### C96 — Extracted facts are all accounted for

Status: **proved**.
Proofs in `Thm/Hindsight.lean`.

| Theorem | Axioms | Says |
|---|---|---|
| `Hindsight.C96_accounting` | pq | C96: of the extracted facts, the ones with an id and a vector that the store accepts count as retained, the ones without an id or a vector as skipped, and every fact is either retained or has an error. |

### C97 — Observations that reach the threshold are persisted

Status: **partial**.
Violated for all inputs: Observe stores with a nil vector, which the store rejects, so a successful call persists nothing.
Proofs in `Thm/Any3.lean`, `Thm/Hindsight.lean`.

| Theorem | Axioms | Says |
|---|---|---|
| `Hindsight.C97_any_error_violated` | pcq | C97 is violated for every bank and every set of memories: whenever an observation is found whose confidence reaches the minimum, the call ends with an error or a panic and returns none of the observations. |
| `Hindsight.C97_persist_violated` | pcq | C97 is violated: whatever is recalled, `Observe` reports success only when no observation reaches the threshold, so no observation is ever persisted by a successful call. |
| `Hindsight.C97_error_violated` | pcq | C97 is violated for two memories about one entity and the default bank. |

### C98 — Geographic distance is the great-circle distance

Status: **proved**.
Proofs in `Thm/GeoDist.lean`.

| Theorem | Axioms | Says |
|---|---|---|
| `Geo.C98_great_circle` | pcq | C98: the computed distance is 6371 km times the angle between the two points on the sphere; the argument of the square root is never negative. |
| `Geo.C98_metric` | pcq | C98: distances are symmetric, between 0 and half the circumference, 0 from a point to itself, and obey the triangle inequality. |

### C99 — A rectangle given as a polygon accepts the points inside it

Status: **proved**.
Proofs in `Thm/Geo.lean`.

| Theorem | Axioms | Says |
|---|---|---|
| `Geo.C99_rectangle` | pcq | C99: for a rectangle the ray-casting rule accepts exactly the points inside it, its northern and eastern sides included and its southern and western sides not. |

### C100 — Subgraph is the induced subgraph

Status: **proved**.
Proofs in `Thm/GraphTraverse.lean`.

| Theorem | Axioms | Says |
|---|---|---|
| `Graph.C100_subgraph_is_induced` | pq | C100: `Subgraph` of distinct ids is the induced subgraph: exactly the stored nodes among them, each once, and exactly the stored edges with both ends among them, each once. |
| `Graph.C100_repeated_id_repeats` | pq | C100: a repeated id repeats its node and edges. |

### C101 — Communities never join unconnected nodes

Status: **proved**.
Proofs in `Thm/GraphAlgo.lean`.

| Theorem | Axioms | Says |
|---|---|---|
| `Graph.C101_communities_are_connected` | pcq | C101: nodes that share a community are connected by edges, whatever the visit orders; the score of a community is its share of the nodes and the ids are distinct. |

### C102 — The combined score is the weighted sum of its parts

Status: **partial**.
The edge strength is added only for nodes that are not vector matches (C102_combined_score_violated); everything else about the score is proved.
Proofs in `Thm/Any4.lean`, `Thm/GraphHybrid.lean`.

| Theorem | Axioms | Says |
|---|---|---|
| `Graph.C102_any_violated` | pcq | C102 is violated for every graph and query: when the threshold lets a node through in one search and not in another, all else being equal, its score differs by the weighted strength of a shortest walk to it, so the node that passes scores less. |
| `Graph.C102_combined_score_partial` | pcq | C102: every result of hybrid search carries the similarity, the inverse of one more than the length of a shortest walk from the start (0 when out of reach) and that length; its combined score is the weighted sum of the two, plus, only for nodes that are not vector matches, the weighted product of the edge weights along a shortest walk. |
| `Graph.C102_combined_score_violated` | pcq | C102: the edge weight counts only for nodes that fail the similarity threshold, so raising the threshold raises the score of the same node for the same query vector. |

### C103 — Similarity in the graph is an exact ranking

Status: **proved**.
Proofs in `Thm/GraphHybrid.lean`.

| Theorem | Axioms | Says |
|---|---|---|
| `Graph.C103_similarity_in_graph` | pcq | C103: `SimilarityInGraph` answers with the best `TopK` of exactly the other stored nodes that are similar enough, each once, and fails for an unknown node. |
| `Graph.C103_unknown_node` | pq | C103: similarity to a node that is not stored is an error, not an empty answer. |

### C104 — Neighbourhood search ranks the whole neighbourhood

Status: **partial**.
Exact without a limit; with a limit the neighbourhood is cut before ranking (C104_limit_violated), and the answer is the top K of the start node and the first neighbours up to the limit (C104_limited_partial).
Proofs in `Thm/Any3.lean`, `Thm/GraphHybrid.lean`.

| Theorem | Axioms | Says |
|---|---|---|
| `Graph.C104_any_late_violated` | pcq | C104 is violated in every graph: with a limit, a node of the neighbourhood that is met after as many others as the limit is not among the results, however similar it is. |
| `Graph.C104_neighbourhood_search_partial` | pcq | C104: without a limit, `GraphVectorSearch` ranks by similarity exactly the start node and its neighbourhood. |
| `Graph.C104_limited_partial` | pcq | C104: with a limit and no node types, the results are the best `limit` of the start node and the first `limit` nodes met walking the graph from it. Missing: a better node of the neighbourhood met later is left out. |
| `Graph.C104_limit_violated` | pcq | C104: with a limit the neighbourhood is cut before it is ranked, so the best neighbour can be left out. |

### C105 — Index-backed vector search over the graph is sound

Status: **proved**.
Proofs in `Thm/GraphHnsw.lean`.

| Theorem | Axioms | Says |
|---|---|---|
| `GHnsw.C105_index_backed_search` | pcq | C105: for every history of the index, graph, query and threshold, vector search over the graph returns at most `k` stored nodes, no node twice, best first, each with the similarity to the vector indexed last under its id and none below the threshold; a stored node that the index found among its best `2k` and that passes the threshold is missing only when `k` nodes at least as good are there. |

### C106 — Combined index and closeness search is an exact ranking of what the index found

Status: **proved**.
Proofs in `Thm/GraphHnsw.lean`.

| Theorem | Axioms | Says |
|---|---|---|
| `GHnsw.C106_index_and_closeness` | pcq | C106: for every history of the index, graph and query, the search that combines the index with closeness to the centres returns the best `TopK`, no node twice and best total first, of exactly the stored nodes that the index found and that pass both thresholds; the total is the weighted sum of the similarity to the vector indexed last and of `1 / (hops + 1)` for the shortest directed path from any centre. |

### C107 — Exported files are recognised

Status: **partial**.
Proved when the first Read delivers at least 48 (GraphML), 44 (GEXF) or 1 (JSON) characters; violated for shorter reads, which io.Reader allows.
Proofs in `Thm/GraphExport.lean`.

| Theorem | Axioms | Says |
|---|---|---|
| `Graph.C107_detects_exports_partial` | pcq | C107: whatever graph was exported, the format is recognised from its first characters: 48 of them are enough for GraphML, 44 for GEXF (up to the 512 that are read), one for JSON. |
| `Graph.C107_short_read_violated` | pcq | C107: one `Read` may deliver fewer characters; after 39 neither XML format is recognised, whatever follows. |

### C108 — A small vector index answers exactly

Status: **partial**.
Exact for at most 2M+1 ids; violated with one more (an outlier is pruned by all its neighbours).
Proofs in `Thm/Counts.lean`, `Thm/Hnsw.lean`.

| Theorem | Axioms | Says |
|---|---|---|
| `Hnsw.C108_default_partial` | pcq | C108 (partial): the search without a candidate list size is exact under the same bounds as the other one, the size being at least 50. |
| `Hnsw.C108_small_index_exact_partial` | pcq | C108: as long as at most `2 M + 1` different ids were ever inserted, a search with a candidate list that can hold them all returns exactly the `k` nearest live vectors. Missing: larger indexes (violated below), real parallel builds (C33), empty ids. |
| `Hnsw.C108_every_live_vector_found_violated` | pq | C108 is violated as soon as one more id is inserted: three near vectors and one far away with `M = 1`. Its neighbours drop it at once, so that a search for everything never returns it. |

### C109 — Links per node stay within the configured limit

Status: **partial**.
Holds for histories without a real parallel build; violated by parallel builds, which do not prune.
Proofs in `Thm/Hnsw.lean`.

| Theorem | Axioms | Says |
|---|---|---|
| `Hnsw.C109_links_bounded_partial` | pcq | C109: without a parallel build no node has more than `M` links on an upper layer or `2 M` at the bottom. Missing: parallel builds, which do not prune (below). |
| `Hnsw.C109_parallel_violated` | pq | C109 is violated by a parallel build: one of the nodes ends with nine links where two are allowed. |

### C110 — Index calls report errors exactly when they should and Size counts the live ids

Status: **proved**.
Proofs in `Thm/Hnsw.lean`.

| Theorem | Axioms | Says |
|---|---|---|
| `Hnsw.C110_errors_and_size` | pcq | C110: `Insert` reports an error exactly for an id that was inserted before, `Delete` exactly for one that never was, and `Size` is the number of ids inserted and not deleted. |

### C111 — A multi index search combines what its parts return

Status: **partial**.
Merging and voting proved; rerank is violated: an unconfirmed candidate gets distance 0 and comes first.
Proofs in `Thm/Counts.lean`, `Thm/MultiIndex.lean`.

| Theorem | Axioms | Says |
|---|---|---|
| `MultiIndex.C111_size` | pq | C111: `Size` of a multi index is the size of its primary part, 0 while there is none; an index added under the primary name becomes the primary part and one added under another name leaves the size alone. |
| `MultiIndex.C111_hybrid_size` | pq | C111: the hybrid index counts what its graph part holds: the id of a successful insertion is counted even when the cluster part refuses it, and a deletion uncounts it although the cluster part keeps it. |
| `MultiIndex.C111_merge_all` | pcq | C111: the merging strategy returns the `k` nearest of everything the parts return for `k`, each id once with the smallest distance that any part gives it. |
| `MultiIndex.C111_voting` | pcq | C111: the voting strategy ranks the ids by how many answers of the parts name them, and among equals by the mean distance. |
| `MultiIndex.C111_rerank_partial` | pcq | C111 (partial): the rerank strategy returns, of the candidates of the primary part, the `k` best by the mean of the distances the secondary parts give them, where a candidate that no secondary part names counts as distance 0. The claim without the last clause is violated, see below. |
| `MultiIndex.C111_rerank_unconfirmed_first_violated` | pcq | C111 is violated by the rerank strategy: a candidate of the primary part that no secondary part finds gets distance 0, so when the distances are positive no candidate that a secondary part confirms is returned before it. |

### C112 — The HNSW adapter builds the index it was asked for

Status: **partial**.
Violated: the adapter passes the dimension as M and M as efConstruction; holds when the dimension is at most M.
Proofs in `Thm/Any3.lean`, `Thm/Details9.lean`, `Thm/MultiIndex.lean`.

| Theorem | Axioms | Says |
|---|---|---|
| `MultiIndex.C112_any_parameters_violated` | – | C112 is violated for every dimension and every `M`: the index links as many nodes as the dimension says, and builds with `M` candidates. |
| `MultiIndex.C112_adapter_exact_partial` | pcq | C112 (partial): an HNSW part that never held more than `2 d + 1` ids, for vectors with `d` components, answers with the `k` nearest live vectors, provided it never held more than 50 ids or more ids than it is asked for. Missing: larger parts, see C108. |
| `MultiIndex.C112_adapter_parameters_violated` | pq | C112 is violated: the adapter made for dimension 6 with `M = 1` lets a node have six links at the bottom instead of two. |
| `MultiIndex.C112_adapter_links_partial` | pcq | C112 (partial): for vectors with at most `M` components the links are bounded as asked. |

### C113 — Training a quantizer covers its training data and a failed training changes nothing

Status: **partial**.
Scalar training covers its data, but a failed training replaces the ranges of a trained quantizer and a short first vector panics. Binary training proved in full.
Proofs in `Thm/Any3.lean`, `Thm/Quant.lean`.

| Theorem | Axioms | Says |
|---|---|---|
| `Quant.C113_any_failed_train_violated` | pcq | C113 is violated by every trained quantizer: training it on a vector of its dimension followed by one of another dimension is refused, but afterwards everything it ever encoded decodes to that first vector. |
| `Quant.C113_train_covers` | pcq | C113: training on vectors of the right dimension succeeds, and then every training vector is inside the trained range, so that each is reconstructed to within a step (with `C38_in_range`). |
| `Quant.C113_failed_train_changes_ranges_violated` | pcq | C113 is violated: training that fails on a later vector of a wrong dimension has already replaced the ranges: a trained quantizer stays trained and decodes what it encoded before to something else. |
| `Quant.C113_short_first_vector_panics_violated` | – | C113 is violated: a first training vector that is too short makes training panic instead of returning the error. |
| `Quant.C113_binary_train` | pcq | C113: training the binary quantizer succeeds exactly on a non-empty batch of vectors of the right dimension; the thresholds are then the means of the components; when it fails the quantizer is as before. |

### C114 — Product quantized search ranks by distance

Status: **partial**.
Reported distance is the sum of subspace distances and the search is exact for it; it is not the Euclidean distance to the reconstruction: ranking violated with two subspaces, bounds proved.
Proofs in `Thm/Any4.lean`, `Thm/ProductQuant.lean`.

| Theorem | Axioms | Says |
|---|---|---|
| `PQuant.C114_any_violated` | pcq | C114 is violated for every quantizer, query and code: as soon as the query is off the codeword in two subspaces, the distance that is reported is larger than the Euclidean distance to the reconstruction. |
| `PQuant.C114_distance` | pcq | C114: the reported distance of a code is the sum over the subspaces of the distances of the query to the codewords. |
| `PQuant.C114_search` | pcq | C114: the search returns the `k` codes of smallest reported distance, nearest first, each position once, with that distance. |
| `PQuant.C114_bounds_partial` | pcq | C114 (partial): the square of the reported distance lies between the square of the Euclidean distance to the reconstruction and that square times the number of subspaces; with one subspace it is that distance. Missing: the ranking by the Euclidean distance, see below. |
| `PQuant.C114_ranking_violated` | pcq | C114 is violated: the search prefers a code at distance 6 to one at distance 5, because distances of subspaces are added instead of their squares. |

### C115 — Product quantizer training yields usable codebooks

Status: **partial**.
Sizes and success proved; an empty cluster leaves a zero codeword outside the data (violated).
Proofs in `Thm/Any4.lean`, `Thm/ProductQuant.lean`.

| Theorem | Axioms | Says |
|---|---|---|
| `PQuant.C115_any_zero_violated` | pcq | C115 is violated whenever the training vectors take fewer different values in a subspace than there are codewords, however the first codewords are drawn: unless training stops before the first mean is taken, one codeword ends as the zero vector. |
| `PQuant.C115_train_ready` | pcq | C115: training on enough vectors of the dimension succeeds and gives a quantizer whose codebooks have the right sizes. |
| `PQuant.C115_new` | pcq | C115: a quantizer is made exactly for a dimension divisible by a positive number of subspaces and at most 256 codewords; no subspaces at all panics. |
| `PQuant.C115_too_few` | p | C115: too few training vectors are refused. |
| `PQuant.C115_empty_cluster_zero_violated` | p | C115 is violated: with repeated training vectors a codeword can be the zero vector although every training vector is near 100: a cluster that gets no vector is left at zero. |

### C116 — A streaming search delivers every candidate

Status: **partial**.
Soundness for every schedule; completeness for prompt consumers without early termination; slow consumers lose results and early termination stops after one good result (violated).
Proofs in `Thm/Stream.lean`.

| Theorem | Axioms | Says |
|---|---|---|
| `Stream.C116_only_candidates` | pq | C116: whatever the scheduler does, a streaming search delivers only candidates, each at most once, with their scores. |
| `Stream.C116_delivers_all_partial` | pq | C116 (partial): when no send is late, nothing is cancelled and early termination is off, every candidate is delivered exactly once with its score, batches in order, each batch best first. Missing: the sends dropped for a slow consumer and early termination, see below. |
| `Stream.C116_late_dropped_violated` | pcq | C116 is violated: results whose send is late are dropped without a trace: a consumer that is slow throughout gets nothing at all. |
| `Stream.C116_early_stop_violated` | pq | C116 is violated: with early termination the stream ends after the first result when that is good enough, however many good results were asked for: the code compares the number of candidates looked at, not the number of good results, with the number wanted. |

### C117 — Merging streams keeps every result

Status: **proved**.
Proofs in `Thm/Stream.lean`.

| Theorem | Axioms | Says |
|---|---|---|
| `Stream.C117_merge` | pq | C117: under every schedule, what was put out together with what is left is what came in, and when the output is closed it holds every result of every input exactly once, those of one input in their order. |

### C118 — Searching with pending updates merges them into the ranking

Status: **partial**.
Ranking proved; both the stored and the pending version of a record are returned (violated).
Proofs in `Thm/Stream.lean`.

| Theorem | Axioms | Says |
|---|---|---|
| `Stream.C118_pending_topk_partial` | pcq | C118 (partial): with a limit, the answer is the top `topK` of the stored results and the pending updates looked at, taken together. Missing: a pending update and the stored record it replaces are both returned, see below. |
| `Stream.C118_both_versions_violated` | pq | C118 is violated: a stored record and a pending update of it are both returned, whatever their scores. |

### C119 — Exclusive calls run alone

Status: **proved**.
Proofs in `Thm/Lock.lean`.

| Theorem | Axioms | Says |
|---|---|---|
| `Lock.C119_exclusive` | pq | **C119.** Under every schedule of any programs, while one thread is inside a section that holds a lock exclusively no other thread is inside a section of the same lock. |

### C120 — Concurrent calls do not race

Status: **partial**.
Race freedom for calls that access state under the locks; Search, SearchWithFilter and Upsert race with Close, IVF deletes race with searches, training races with itself, SetAlpha with Route (violated).
Proofs in `Thm/Lock.lean`.

| Theorem | Axioms | Says |
|---|---|---|
| `Lock.C120_no_race_partial` | pq | **C120 (partial).** Threads that only make calls which access the store's state under its locks never race, under any schedule. |
| `Lock.C120_closed_flag_violated` | p | **C120, violated.** Every search and every insert reads the closed flag while a `Close` may be writing it. |
| `Lock.C120_ivf_delete_violated` | p | **C120, violated.** Deleting a record of an IVF store changes the index lists while a search reads them. |
| `Lock.C120_training_violated` | p | **C120, violated.** Two first inserts both train the quantizer at the same time. |
| `Lock.C120_alpha_violated` | p | **C120, violated.** Setting the weight of a hybrid router races with routing. |

### C121 — Routers, combined indexes and the memory system never deadlock

Status: **proved**.
Store calls restricted to those that do not take the store lock twice (C28). Goroutines of Recall and MultiIndex are taken one after the other; wait groups are not modelled.
Proofs in `Thm/Lock.lean`.

| Theorem | Axioms | Says |
|---|---|---|
| `Lock.C121_no_deadlock` | pcq | **C121.** Any number of threads using the routers, the combined indexes and the memory system, together with store calls that do not take the store lock twice, never deadlock under any schedule, and all calls can always still return. |

### C122 — Load never overwrites a stored record unless asked

Status: **partial**.
Proved: SkipExisting keeps the records present before. Violated: Replace and Upsert are ignored and existing records are overwritten when neither is set.
Proofs in `Thm/Any3.lean`, `Thm/Io.lean`.

| Theorem | Axioms | Says |
|---|---|---|
| `Io.C122_any_overwrites_violated` | pcq | C122 is violated in every store: an import that was not asked to replace overwrites the record that has the id. |
| `Io.C122_skip_keeps_partial` | pcq | **C122 (partial).** With `SkipExisting`, and as long as looking a record up does not fail, no input changes a record that was there before the load. |
| `Io.C122_replace_ignored_violated` | – | **C122, violated.** `Replace` and `Upsert` have no effect: what a load does with a record is the same whether they are set or not … |
| `Io.C122_overwrites_violated` | – | … so without `SkipExisting` an existing record is overwritten although replacing was not asked for. |

### C123 — Faceted search returns the best TopK among all records matching the facets

Status: **partial**.
Every facet condition or filter gives an SQL error (ambiguous column metadata) in every store; without one the candidates are cut before scoring, so the best record can be missed. The partial theorem gives what is returned.
Proofs in `Thm/Details.lean`, `Thm/Range.lean`, `Thm/Wider.lean`.

| Theorem | Axioms | Says |
|---|---|---|
| `Range.C123_every_kind_violated` | pcq | **C123, violated.** Every facet that asks for anything, of any kind, makes the search fail in every open store. |
| `Range.C123_any_facet_violated` | pcq | **C123, violated.** For every store, query and limit, a faceted search with any facet that says something (or with a metadata filter) fails. |
| `Range.C123_plain_partial` | pcq | **C123 (partial).** Without conditions, and while the records of the scope are not more than ten times the limit, a faceted search gives the best records of the scope above the threshold. |
| `Range.C123_best_missed_violated` | pcq | **C123, violated.** With more than ten times as many records as asked for, the best one may be left out: the rows are cut before they are scored. |
| `Range.C123_any_missed_violated` | pcq | **C123, violated.** For every store with more than ten times as many records in the scope as asked for, and every one of these records: the database may give the rows in such an order that the record is left out, even if it is the best. |

### C124 — Facet counts are those of the records the search speaks about

Status: **partial**.
Counts hold when every record has metadata; one record without metadata makes them fail, and the collection is ignored.
Proofs in `Thm/Any2.lean`, `Thm/Range.lean`, `Thm/Wider.lean`.

| Theorem | Axioms | Says |
|---|---|---|
| `Range.C124_any_ignored_violated` | pcq | The counts of a faceted search are the same whatever is searched for: neither the collection, nor the threshold, nor the query, nor the number of records asked for make a difference. |
| `Range.C124_counts_partial` | pcq | **C124 (partial).** When every record of the store has metadata and the name is plain, a facet lists values of the field, each once, with the number of records of the whole store that have it, at most the number asked for (10 if not said), no value left out being more frequent; it is missing only when no record has the field; and the total is the sum of what is listed. |
| `Range.C124_nil_metadata_violated` | pcq | **C124, violated.** One record without metadata anywhere in the store removes every facet. |
| `Range.C124_collection_ignored_violated` | pcq | **C124, violated.** The counts are those of the whole store also when the search is about one collection: the answer has one record of that collection, the facet counts two. |
| `Range.C124_scope_ignored_violated` | pcq | **C124, violated.** For every store: the facets of two searches that succeed are the same whatever the collection, the limit and the threshold of the searches. |

### C125 — A keyword boost never demotes a matching result

Status: **partial**.
Holds for scores that are not negative; negative scores (Euclidean) are lowered by the boost.
Proofs in `Thm/Rerank.lean`.

| Theorem | Axioms | Says |
|---|---|---|
| `Rerank.C125_boost_partial` | pcq | **C125 (partial).** When scores are not negative, boosting never lowers a score, and a result that is at least as good before and contains at least as many words is at least as good afterwards. |
| `Rerank.C125_negative_violated` | pcq | **C125, violated.** With a negative score (Euclidean stores give only such) the boost works against the match: every result that contains a word of the query gets a lower score, and of two equally scored results the one with the words comes second. |

### C126 — Searching with a reranker honours its options

Status: **partial**.
TopK and threshold hold with a reranker; the threshold is ignored without one, PreserveOriginalScore always.
Proofs in `Thm/Rerank.lean`.

| Theorem | Axioms | Says |
|---|---|---|
| `Rerank.C126_reranked_partial` | pcq | **C126 (partial).** A search with a reranker searches for five times as many results as asked for (at least 50), and returns results of the reranker for these, in the reranker's order, all at or above the threshold, at most as many as asked for, leaving out only for these two reasons. |
| `Rerank.C126_none_partial` | pcq | **C126.** Without a reranker it is a plain search … |
| `Rerank.C126_threshold_ignored_violated` | pcq | **C126, violated.** … so the threshold has no effect then. |
| `Rerank.C126_preserve_ignored_violated` | pcq | **C126, violated.** The option to keep the original score has no effect. |

### C127 — Positive and negative examples rank by similarity less weighted dissimilarity

Status: **partial**.
Holds for similarities that are not negative and weight not 0. In a Euclidean store every score is 0; weight 0 is 1/2; the threshold is ignored.
Proofs in `Thm/Diversity.lean`.

| Theorem | Axioms | Says |
|---|---|---|
| `Diversity.C127_negatives_partial` | pcq | **C127 (partial).** When similarities are not negative and the weight is not 0, a search with examples answers with the records in scope ranked by their greatest similarity to a positive example less the weighted greatest similarity to a negative one. |
| `Diversity.C127_euclid_violated` | pcq | **C127, violated.** Where similarities are never positive (a Euclidean store) every result gets the score 0, whatever the examples: the ranking says nothing. |
| `Diversity.C127_options_violated` | pcq | **C127, violated.** A weight of 0 is a weight of 1/2, and the threshold is not looked at. |

### C128 — Recommendations follow the examples

Status: **partial**.
The ranking holds for similarities that are not negative. Unknown examples are ignored silently and the examples are in the answer.
Proofs in `Thm/Diversity.lean`.

| Theorem | Axioms | Says |
|---|---|---|
| `Diversity.C128_recommend_partial` | pcq | **C128 (partial).** A recommendation ranks the records in scope by their similarity to the stored vectors of the examples that exist, when similarities are not negative. |
| `Diversity.C128_unknown_violated` | pcq | **C128, violated.** Unknown examples are not reported: asking only for unknown ones gives every record in scope with the score 0. |
| `Diversity.C128_examples_violated` | pcq | **C128, violated.** The examples themselves are recommended: without a limit every example in scope is in the answer. |

### C129 — Anomalies are ranked by the mean distance to the nearest five others

Status: **proved**.
Proved for all stores; exact arithmetic.
Proofs in `Thm/Diversity.lean`.

| Theorem | Axioms | Says |
|---|---|---|
| `Diversity.C129_anomalies` | pcq | **C129.** The anomalies are the records in scope ranked by the mean distance to their five nearest others. |

### C130 — A multi-vector search leaves the caller's options as they were

Status: **partial**.
Violated: the caller's non-nil filter keeps _vector_field of the last field searched; a nil filter stays nil.
Proofs in `Thm/MultiVector.lean`.

| Theorem | Axioms | Says |
|---|---|---|
| `MultiVector.C130_filter_violated` | pq | **C130, violated.** A search writes the last field searched into the caller's filter, so a later search of the caller with the same filter finds only rows of this field. |
| `MultiVector.C130_nil_partial` | p | **C130 (partial).** A nil filter stays nil. |

### C131 — Writing an entity with several vectors is all or nothing, in the store and in the index

Status: **partial**.
Rows are atomic; violated: the index keeps vectors of a failed write, and with foreign keys on no entity can be stored without a document of the same id.
Proofs in `Thm/MultiVector.lean`, `Thm/MultiVectorAny.lean`.

| Theorem | Axioms | Says |
|---|---|---|
| `MultiVector.C131_document_violated` | pq | **C131, violated.** On a connection that enforces foreign keys no entity can be stored unless a document of the same identifier exists: the write fails and the rows stay as they were. |
| `MultiVector.C131_atomic_partial` | p | **C131 (partial).** A write that fails leaves the rows as they were. |
| `MultiVector.C131_index_violated` | p | **C131, violated.** But not the index: it keeps the vectors of the fields before the one that failed. |
| `MultiVector.C131_any_index_violated` | p | **C131, violated for every store.** When a field cannot be encoded the write fails and changes no record, but the index gets the vectors of the fields before it. |

### C132 — Deleting an entity removes all its vectors and nothing else

Status: **partial**.
Holds when every record has metadata; violated: one record without metadata makes every delete fail.
Proofs in `Thm/MultiVector.lean`.

| Theorem | Axioms | Says |
|---|---|---|
| `MultiVector.C132_delete_partial` | pcq | **C132, deleting (partial).** When every record has metadata, deleting an entity removes exactly its rows, and it is not found afterwards; the index is told each of their identifiers. |
| `MultiVector.C132_plain_record_violated` | pq | **C132, violated.** With one record without metadata anywhere in the store no entity can be deleted. |

### C133 — Hybrid search finds by keyword what is stored

Status: **partial**.
Exact without rewrites. Violated: a record written more than 3*TopK times is not found (for all texts and queries), and a reused row id makes ranking fail.
Proofs in `Thm/Fts.lean`, `Thm/FtsAny.lean`.

| Theorem | Axioms | Says |
|---|---|---|
| `Fts.C133_malformed_violated` | pcq | **C133, violated.** When that record is deleted too, ranking fails, and `HybridSearch` finds nothing although a record matches. |
| `Fts.C133_rewritten_violated` | pcq | **C133, violated.** A record written more than three times TopK times with the same text cannot be found by keyword in `HybridSearch` (nor in `SearchTextOnly`, which is `HybridSearch` without a vector): the entries left behind by the earlier writes take all the places. |
| `Fts.C133_fresh_partial` | pcq | **C133 (partial).** Without rewriting, `HybridSearch` fetches exactly the records whose text satisfies the query, as long as they fit in three times TopK places (30 without a limit). |
| `Fts.C133_ghost_violated` | pcq | **C133, violated for every history.** When that record is deleted too, a hybrid search for such a word or anything else finds nothing by keywords, although other records may match. |

### C134 — Keyword hits of messages and memories are the messages that currently contain the keyword

Status: **proved**.
Proved for all histories. Queries are terms with AND, OR, NOT; phrases and prefixes are not modelled.
Proofs in `Thm/Fts.lean`.

| Theorem | Axioms | Says |
|---|---|---|
| `Fts.C134_messages` | pq | **C134, messages.** After every history of adding, saving, updating and deleting messages (single ones, a session, a bucket), a keyword search answers with messages whose current text satisfies the query, each once, and with all of them when the limit allows. It never fails. |

### C135 — Retrieval over chunks and graph returns seeds and their linked chunks, and nothing else

Status: **proved**.
Proofs in `Thm/Details5.lean`, `Thm/RagSearch.lean`.

| Theorem | Axioms | Says |
|---|---|---|
| `RagSearch.C135_next` | pcq | **C135.** The entities next to a chunk, as the stored graph gives them: each is the content of a stored node of type `entity`. |
| `RagSearch.C135_next_all` | pcq | **C135.** When a chunk has at most `cap` neighbours, the entities next to it are exactly the contents of the entity nodes that an edge of any type joins to it, in either direction. |
| `RagSearch.C135_sound` | pcq | C135: when a search over chunks and the graph answers, every chunk of the answer is a seed of the vector search with its score, or a chunk the graph links to a seed with half the score of the best such seed; no chunk is listed twice; each comes with its own entities; there are at most `MaxContextChunks` chunks; the context is the listed chunks. |
| `RagSearch.C135_complete` | pcq | C135: when the chunk budget covers the seeds and the linked chunks asked for (the default), every seed is in the answer unless the budget of its document or of the context is used up; and a linked chunk that is missing for no such reason had to give way to `MaxRelatedChunks` linked chunks with scores at least as high. |
| `RagSearch.C135_entities` | pcq | C135: the entities of the answer are, each once, those the graph returns around a seed and those next to a seed or to a chunk linked to a seed (also when that chunk itself was cut from the answer). |
| `RagSearch.C135_answers` | pcq | C135: the search fails exactly when a call to the graph does. |

### C136 — A retrieval in a collection stays in the collection

Status: **partial**.
The graph expansion is not restricted to the collection of the search: a chunk of another collection that mentions the same entity is returned (witness on a stored graph). What holds: without the graph only the hits are returned; with it, only hits and linked chunks, so the property holds when the links stay in the collection.
Proofs in `Thm/Any4.lean`, `Thm/RagSearch.lean`.

| Theorem | Axioms | Says |
|---|---|---|
| `RagSearch.C136_any_violated` | pcq | C136 is violated for every collection and every graph: a chunk outside the collection (`In`) that the graph links to a hit is in the answer whenever the linked chunks are fewer than `MaxRelatedChunks` and no budget is used up. |
| `RagSearch.C136_seeds_only_partial` | pcq | C136 without the graph (mode lexical, graph disabled, or no name in the query): every chunk of the answer is a seed, unchanged, so in the collection that was searched, and no entities are listed. Missing: searches that use the graph, see `C136_other_collection_violated`. |
| `RagSearch.C136_linked_partial` | pcq | C136 when the graph links the seeds only to chunks of the same collection (`In`): the answer stays in it. Missing: nothing in the code keeps the links in a collection, see `C136_other_collection_violated`. |
| `RagSearch.C136_other_collection_violated` | pcq | C136: a search in the collection of document a, whose only chunk there is the seed, returns the text of a chunk of document b, which is in another collection, because both mention the same entity. |

### C137 — Reranking can be switched off

Status: **partial**.
The defaults turn Rerank on whenever it is false, for all options. No partial: the code has no way to switch it off.
Proofs in `Thm/RagSearch.lean`.

| Theorem | Axioms | Says |
|---|---|---|
| `RagSearch.C137_always_reranks_violated` | pcq | C137: whatever the caller asks, the options in force rerank. |
| `RagSearch.C137_order_violated` | pcq | C137: with `Rerank: false` a chunk with the lower search score comes first. |

### C138 — The best text hit of a lexical retrieval can come first

Status: **partial**.
Violated for all inputs of a class: whenever entities bring no hits and any chunk is linked to a text hit, the first chunk is a linked one. Partial: without the graph only text hits are returned.
Proofs in `Thm/RagLexical.lean`.

| Theorem | Axioms | Says |
|---|---|---|
| `RagSearch.C138_text_hit_never_first_violated` | pcq | C138 is violated: take any lexical search that uses the graph and whose entities bring no hits. If the graph returns any chunk around a text hit, then the first chunk of the answer is such a linked chunk: a text hit the graph does not link to another hit never comes first, however well it matches, since a text hit scores at most 1/61 and a linked chunk 1/2. |
| `RagSearch.C138_text_scores` | pcq | The scores of a text search are within the bound of C138: they are reciprocals of at least 61 times weights of at most 1. |
| `RagSearch.C138_witness_violated` | pcq | The query "red fox" is answered with a chunk that shares no word with it ahead of the chunk that is the query word for word. |
| `RagSearch.C138_without_graph_partial` | pcq | C138, the part that holds: without the graph the chunks are the text hits, each once. |

### C139 — Lexical retrieval returns text hits, entity hits and their linked chunks, with the best score of each

Status: **proved**.
Proofs in `Thm/RagLexical.lean`, `Thm/RagMode.lean`.

| Theorem | Axioms | Says |
|---|---|---|
| `RagSearch.C139_sound` | pcq | C139: whatever the graph, the text hits and the entity hits: every chunk a lexical search returns is a text hit, an entity hit or a chunk the graph returns around one; its text is that of such a sighting, its score the best over all of them (a text hit counts its text score, an entity hit at least 3/4, a linked chunk 1/2), its entities those next to it; no chunk comes twice, the number of chunks keeps within the budget and the context is that of the chunks. |
| `RagSearch.C139_scores` | pcq | C139: the score of every chunk of a search by words that uses the graph is the best over all the ways the chunk was found. |

### C140 — Chunks are fetched and packed in the order asked

Status: **proved**.
Proofs in `Thm/Counts.lean`, `Thm/RagLexical.lean`.

| Theorem | Axioms | Says |
|---|---|---|
| `RagSearch.C140_entities` | pq | C140: chunks fetched by id come with their entities unless graph retrieval is disabled or the mode is lexical. |
| `RagSearch.C140_search_entities` | p | C140: a lexical search lists the entities of its chunks when graph retrieval is on and the mode is graph, or automatic with a query that is blank or names an entity. |
| `RagSearch.C140_get_chunks` | pq | C140: the chunk tool returns the stored chunks for the ids asked, in the order asked, with their stored text, and skips the ids that are not stored; an id asked twice is returned twice. It fails only when the graph cannot list the entities of a stored chunk. |
| `RagSearch.C140_build_context` | pcq | C140: the context tool packs those chunks in the order asked: the chunks of the context are a subsequence of them that starts with the first, keeps the budgets, and leaves a chunk out only when a budget is used up; the context is the text of the packed chunks. |

### C141 — The graph writing tools report only what was stored

Status: **partial**.
Violated for relations with an end, and mentions with a chunk, that is not stored: the edge fails on its foreign key, the batch counts the failure and goes on, and the tool reports its id and count all the same. Partial: all named ends stored.
Proofs in `Thm/Details7.lean`, `Thm/GraphTools.lean`.

| Theorem | Axioms | Says |
|---|---|---|
| `GraphTools.C141_node` | pcq | **C141.** The node of an entity: an id that begins with `entity:` is the node, else a name that begins so; anything else that is not blank is made into a node id, the id before the name. |
| `GraphTools.C141_refused` | pcq | **C141.** Relations that the database refuses to commit are an error, and nothing is stored. |
| `GraphTools.C141_refused_nodes` | pcq | **C141.** Entities whose nodes the database refuses to commit are an error, and nothing is stored. |
| `GraphTools.C141_half` | pcq | **C141.** When the nodes are committed and the mentions are refused, the call is an error although its nodes stay: the two are not one transaction. |
| `GraphTools.C141_relations_partial` | pcq | C141: if the ends of all relations are stored (or foreign keys are not enforced), every relation with two named ends is stored with its ends, type, weight and properties under an id the answer reports; the ids reported are all different and each is stored; no node and no other edge changes. |
| `GraphTools.C141_unknown_end_violated` | pcq | C141 is violated: with foreign keys enforced, a relation one of whose ends is not stored is reported under an id although nothing was stored and no error is returned. |
| `GraphTools.C141_entities_partial` | pcq | C141: entities. If the chunks named are stored (or foreign keys are not enforced) and the node ids hold no further colon (as those made from names), then every entity with a name or id has its node among the ids reported; the node stored under an id reported says what the last entity of the request with that id says; every mention is stored as an edge from the chunk to the entity, and the number reported is the number of mentions sent; no other node changes, and every other edge is one that was there before, which are all kept but those of a mention sent. |
| `GraphTools.C141_unknown_chunk_violated` | pcq | C141 is violated for mentions: with foreign keys enforced, an entity said to be mentioned in a chunk that is not stored is answered with one mention, and no edge was stored. |

### C142 — Recording the same relation again adds no second edge

Status: **partial**.
Violated: the edge id contains the position in the request, so the same relation at another position gets a second edge. Partial: the same request repeated changes nothing.
Proofs in `Thm/GraphTools.lean`, `Thm/Wider.lean`.

| Theorem | Axioms | Says |
|---|---|---|
| `GraphTools.C142_same_request_partial` | pcq | C142: sending the same relations again changes nothing. |
| `GraphTools.C142_position_violated` | pcq | C142 is violated: the same relation recorded again, in a request that lists another one before it, is stored a second time. |
| `GraphTools.C142_any_position_violated` | pcq | C142: for every graph and relation between known entities: recorded once on its own and again after other relations, it is stored twice. |

### C143 — An entity recorded as mentioned in a chunk is listed among the entities of that chunk

Status: **partial**.
Violated: only nodes of type entity are listed, so an entity recorded with a type (person, ...) is not. Partial: type entity and at most 32 neighbours.
Proofs in `Thm/GraphToolsRead.lean`.

| Theorem | Axioms | Says |
|---|---|---|
| `GraphTools.C143_listed_partial` | pcq | C143: an entity of the type "entity" that shares a stored edge with a chunk is listed among the chunk's entities, if no more than 32 nodes are next to the chunk; and only such entities are listed. Missing: entities of other types (see the violation) and chunks with more neighbours. |
| `GraphTools.C143_other_types_violated` | pq | C143 is violated: whatever is stored, an entity of a type other than "entity" is never listed among the entities of a chunk, unless another node of type "entity" has the same text. |
| `GraphTools.C143_person_violated` | pcq | The person recorded as mentioned in the chunk is missing from its entities; the one recorded without a type is there. |

### C144 — Chunks by entities are scored by how many of the named entities they are linked to

Status: **partial**.
Violated: a name given twice (in any spelling) counts twice. Partial: score is the number of names given.
Proofs in `Thm/Any3.lean`, `Thm/GraphToolsRead.lean`.

| Theorem | Axioms | Says |
|---|---|---|
| `GraphTools.C144_any_repeated_violated` | pcq | C144 is violated in every graph: naming one entity `n` times, in whatever spellings, gives every chunk found the score `n`. |
| `GraphTools.C144_by_entities_partial` | pcq | C144: the chunks found by entities: each returned chunk is near at least one of the named entities, its score is the number of names it is near to, no chunk comes twice, they are ordered by score and then by id, at most the number asked, and a chunk near to a named entity is left out only when that many with at least its score are returned. Missing: a name given twice counts twice (see the violation). |
| `GraphTools.C144_repeated_violated` | pcq | C144 is violated: asked for Ada, ADA and Bob, the chunk that mentions Ada only has score 2 and the chunk that mentions Bob score 1, although each is linked to one of the two entities. |

### C145 — Expanding the graph returns exactly the reachable part

Status: **proved**.
Proofs in `Thm/GraphToolsRead.lean`.

| Theorem | Axioms | Says |
|---|---|---|
| `GraphTools.C145_expand_exact` | pcq | C145: `ExpandGraph` without a limit returns, each once, exactly the stored nodes that are asked for by a non-empty id or are reached from one by a walk of at most the given number of edges of the wanted types (and have a wanted type), and exactly the stored edges between returned ids. |
| `GraphTools.C145_expand_limit` | pcq | C145: `ExpandGraph` with any limit fails on no graph, returns every stored node asked for, no node out of reach, and at most `limit` nodes besides itself for each id asked for. |

### C146 — Expanding the graph along edge types shows only edges of these types

Status: **partial**.
Violated: the subgraph step returns all edges between the nodes found. Partial: for every limit, the nodes are reached from an id asked for along edges of the wanted types only.
Proofs in `Thm/GraphToolsRead.lean`.

| Theorem | Axioms | Says |
|---|---|---|
| `GraphTools.C146_edge_types_violated` | pcq | C146 is violated: an expansion along edges of type "likes" also returns an edge of type "fears" between the nodes it found. |
| `GraphTools.C146_nodes_partial` | pcq | C146: with any limit, each node returned is reached from an id asked for along at most the given number of edges, all of the wanted types, and an edge of another type is returned only between two ids that were asked for or reached. Missing: those edges are returned. |
| `GraphTools.C146_any_edge_violated` | pcq | C146 is violated for every graph: an edge between two ids that are asked for is returned, whatever its type and whatever edge types are asked for. |

### C147 — The lexical vector is a bag of words of fixed dimension and never zero

Status: **proved**.
Proofs in `Thm/LexTools.lean`.

| Theorem | Axioms | Says |
|---|---|---|
| `GraphTools.C147_counts` | pcq | C147: the lexical vector has the configured dimension (64 when none is given). Each entry is the number of words of the text whose hash falls on it, words being cut at white space, in lower case and without surrounding punctuation; a text without any word gives the first unit vector. |
| `GraphTools.C147_never_zero` | pcq | C147: the vector is never the zero vector, so a similarity to it is always defined. |
| `GraphTools.C147_bag` | pcq | C147: texts with the same words, in any order, have the same vector. |
| `GraphTools.C147_order_and_case` | pcq | C147: words put in another order, and in another case, give the same vector. |
| `GraphTools.C147_collision` | pcq | C147: whatever the hash and the dimension, there are two different words with the same vector: equal vectors do not mean equal texts. |

### C148 — The full-text queries made from a question are distinct, non-blank and lose no keyword

Status: **proved**.
Proofs in `Thm/LexTools.lean`.

| Theorem | Axioms | Says |
|---|---|---|
| `GraphTools.C148_keywords` | pcq | C148: the keywords of a text are, each once, exactly its maximal runs of letters and digits in lower case that are at least two bytes long and are not on the list of stop words. |
| `GraphTools.C148_queries` | pcq | C148: the queries sent to the full-text index are all different, none is blank, the first is the trimmed question (when it is not blank). Each of them is the question, one of the alternates, or some keywords joined by ` OR `. |
| `GraphTools.C148_complete` | pcq | C148: a keyword given by the caller or found in the question is never dropped: one of the queries is the ` OR ` of terms that include it. |

### C149 — An argument taken after a keyword stands in the text

Status: **partial**.
Violated as to case: the value is cut from the text in lower case (`C149_case_violated`).
Proofs in `Thm/Any2.lean`, `Thm/Details.lean`, `Thm/FuncRouter.lean`.

| Theorem | Axioms | Says |
|---|---|---|
| `FuncRouter.C149_any_case_violated` | pcq | No word with a letter in upper case is ever returned for a keyword, from no text. |
| `FuncRouter.C149_stops_partial` | pcq | C149: an argument taken after a keyword has no blank, quote or punctuation mark in it, and is followed by one or by the end of the text. |
| `FuncRouter.C149_value_from_text_partial` | pcq | A value taken after a keyword stands in the lower case text, after the keyword and a blank, holds no blank, quote or punctuation, and is as long as it can be. |
| `FuncRouter.C149_value_found` | pcq | A word written after the first place of a keyword and a blank is found. |
| `FuncRouter.C149_case_violated` | pcq | The value is not as the user wrote it: it is taken from the text in lower case. |

### C150 — A number in the text is the number passed to the function

Status: **partial**.
Violated: the sign is lost (for every negative number), a number of 2^63 or more becomes 0, the value after a keyword ends at the decimal point, and a word is passed where a number is declared. Proved for whole numbers below 2^63, and for decimals that come from a registered pattern or an enumeration.
Proofs in `Thm/Details.lean`, `Thm/FuncRouter.lean`.

| Theorem | Axioms | Says |
|---|---|---|
| `FuncRouter.C150_boolean` | pcq | C150: a truth value is true exactly for the texts true, yes, 是 and 好的, in any case of letters. |
| `FuncRouter.C150_integer_partial` | pcq | A whole number below 2^63 written in decimal comes out as that number, whatever unit is glued to it. |
| `FuncRouter.C150_sign_violated` | pcq | The sign is lost, for every negative number. |
| `FuncRouter.C150_large_violated` | pcq | A number too large for 64 bits comes out as 0. |
| `FuncRouter.C150_decimal` | pcq | A decimal number given as a whole value (a registered pattern or an enum value) is read exactly. |
| `FuncRouter.C150_keyword_whole` | pcq | The value found after a keyword never has a fractional part: it ends at the decimal point. |
| `FuncRouter.C150_text_violated` | pcq | A price is cut at the decimal point, a temperature below zero loses its sign, and a word is passed for a number. |

### C151 — An enumerated parameter gets one of its values

Status: **partial**.
Violated: the word after a keyword is taken unchecked (`C151_enum_ignored` for all enumerations). Proved when no keyword has a word after it.
Proofs in `Thm/FuncRouter.lean`.

| Theorem | Axioms | Says |
|---|---|---|
| `FuncRouter.C151_enum_partial` | pcq | Without a value after a keyword: an enumerated value that occurs in the text whatever the case, else the default. |
| `FuncRouter.C151_enum_ignored` | pcq | A value after a keyword is taken whatever the enumeration says. |
| `FuncRouter.C151_enum_violated` | pcq | A value outside the enumeration is reported as an argument of a complete call. |

### C152 — A matched text becomes a call of the route's function, and only complete calls run

Status: **partial**.
Violated when the route and its function have different names: Add files the function under its own name, Route looks it up under the route's name (`C152_name_violated`). Proved for equal names; the rest (what is executed) holds without guard.
Proofs in `Thm/FuncRouter.lean`.

| Theorem | Axioms | Says |
|---|---|---|
| `FuncRouter.C152_call_partial` | pcq | A text routed to a route becomes a call of the function that was added last under the name of the route, with the arguments found for its parameters. |
| `FuncRouter.C152_name_violated` | pcq | The function of a route is not found when it has another name than the route: the text is routed, and the answer is an error. |
| `FuncRouter.C152_no_match` | pcq | No call without a match. |
| `FuncRouter.C152_run` | pcq | A handler is run only for a matched route, with the handler of the function of that name, and with a value for every required parameter; every argument belongs to a parameter. |
| `FuncRouter.C152_refused` | pcq | A call is refused when a required parameter has no value. |

### C153 — The list of required parameters of a schema is right and decides completeness

Status: **partial**.
Violated: each further Build lists all required parameters again, and the list of a schema not made by the builder is ignored. Proved for schemas built once.
Proofs in `Thm/Any2.lean`, `Thm/FuncRouter.lean`.

| Theorem | Axioms | Says |
|---|---|---|
| `FuncRouter.C153_any_list_violated` | pcq | The list of required parameters of a function makes no difference to any call: only the mark on each parameter does. |
| `FuncRouter.C153_required_partial` | pcq | After one `Build` the list of required parameters holds each required parameter once, and nothing else. |
| `FuncRouter.C153_again_violated` | pcq | Every further `Build` lists all required parameters again. |
| `FuncRouter.C153_complete_partial` | pcq | The call of a function built with the builder is complete exactly when every parameter on its list of required ones has a value. |
| `FuncRouter.C153_list_violated` | pcq | The list of required parameters of a schema that was not made by the builder (read from JSON, or written as a literal) is not looked at: a call without the parameter is complete and its handler is run. |

### C154 — Parameter extraction never panics

Status: **partial**.
Violated: a word such as `(in` in a description makes the extraction panic on every text that contains it (given that Go refuses an unclosed parenthesis, `RefusesOpen`). Proved for names and descriptions without special characters.
Proofs in `Thm/FuncRouter.lean`.

| Theorem | Axioms | Says |
|---|---|---|
| `FuncRouter.C154_no_panic_partial` | pcq | Names and descriptions without characters special to regular expressions never make extraction panic. |
| `FuncRouter.C154_panic_violated` | pcq | A parameter whose description opens a parenthesis before a word makes every text that holds this word with the parenthesis panic, unless an earlier keyword gives a value. |

### C155 — Ingested document is complete in the graph

Status: **partial**.
Violated: an embedder that answers with an empty (not nil) vector for a chunk: the row is stored, the call succeeds and names the chunk, but the graph has no node and no edges for it (C155_empty_violated, for every such call). Guard of C155_held_partial: no chunk vector of this call is empty. C155_only and C155_again need no guard; C155_again assumes an embedder that gives a text the same vector each time. ':' and '|' are not letters. The document record and the chunk rows are in the model of the knowledge base.
Proofs in `Thm/IngestProps.lean`.

| Theorem | Axioms | Says |
|---|---|---|
| `Ingest.C155_held_partial` | pcq | C155: after a successful ingestion in which the embedder returned no empty vector for a chunk, the graph holds the document with all its chunks in their order, and the answer names the document node and the chunk nodes in order. |
| `Ingest.C155_only` | pcq | C155: nothing else is added. Every edge of the graph afterwards was there before or stands for a chunk, an order of chunks, an extracted entity or an extracted relation; nodes with other ids stay as they were. |
| `Ingest.C155_again` | pcq | C155: ingesting the same document once more, with an embedder that gives each text the same vector whenever it is asked, changes no node and no edge, whatever the order in which entities and relations are visited. |
| `Ingest.C155_empty_violated` | pcq | C155 is violated when the embedder answers with an empty vector for a chunk: the call succeeds and names the chunk, but the graph has no node for it and, with foreign keys enforced, no edge from the document to it or from its neighbours. |

### C156 — Extracted entities become nodes the chunks point to

Status: **partial**.
Violated: an entity whose name gets an empty vector is listed in the answer but has no node and no mention (C156_empty_violated). Guard of the partial: the embedder returns no empty vector. Two names with one id share a node (C82): the node then has the name of one of them, which the theorem allows.
Proofs in `Thm/IngestProps.lean`.

| Theorem | Axioms | Says |
|---|---|---|
| `Ingest.C156_entities_partial` | pcq | C156: after a successful ingestion every entity that the extractor found with a name in a chunk has a node, whose name and type are those of an entity found in the document under the same id; the chunk points to it; the answer lists exactly the ids of the entities found, each once. |
| `Ingest.C156_empty_violated` | pcq | C156 is violated when the embedder answers with an empty vector for the name of an entity: the call succeeds and lists the entity, but the graph has no node for it and, with foreign keys enforced, no mention of it. |

### C157 — Extracted relations are not lost

Status: **partial**.
Violated: with foreign keys enforced a relation with an end that was neither stored nor extracted as an entity is dropped although the call succeeds (C157_dropped_violated, for every such call). Guard of the partial: both ends have nodes, or foreign keys are off. Of several relations of a chunk with equal ends and type one edge is kept, with the weight of the last.
Proofs in `Thm/IngestProps.lean`.

| Theorem | Axioms | Says |
|---|---|---|
| `Ingest.C157_relations_partial` | pcq | C157: after a successful ingestion every relation with two named ends that the extractor found in a chunk, and whose ends have nodes (or foreign keys are not enforced), is stored with its ends and type; its weight is that of the last relation found in the same chunk with the same ends and type. |
| `Ingest.C157_dropped_violated` | pcq | C157 is violated: a relation is dropped without an error when foreign keys are enforced and one of its ends was neither in the graph nor found as an entity in the document: nothing in the graph touches that end after the ingestion that succeeded. |

### C158 — A failed ingestion leaves the graph as it was

Status: **partial**.
Violated: an extractor error leaves the document node (C158_extractor_violated), a short embedder answer panics (C158_embedder_violated). C158_failed_partial: no edge changes and only nodes of the document, its chunks and entities can.
Proofs in `Thm/IngestProps.lean`.

| Theorem | Axioms | Says |
|---|---|---|
| `Ingest.C158_failed_partial` | pcq | C158: a call that fails or panics adds, changes and removes no edge, and touches no node but that of the document, of its chunks and of entities. |
| `Ingest.C158_extractor_violated` | pcq | C158 is violated: when the extractor fails on any chunk, the call returns an error but the node of the document stays in the graph, without any chunk. |
| `Ingest.C158_embedder_violated` | pcq | C158 is violated: an embedder that answers with fewer vectors than texts makes the call panic, with the node of the document written. |

### C159 — Ingestion without an embedder

Status: **proved**.
Proofs in `Thm/IngestProps.lean`.

| Theorem | Axioms | Says |
|---|---|---|
| `Ingest.C159_ingested` | pcq | C159: without an embedder, a document with an id and a text that is not blank is ingested whenever the database accepts the writes: the graph then holds it with all its chunks in their order, every chunk with the lexical vector of its text, and no other node or edge changes. |
| `Ingest.C159_dimension` | pq | C159: the dimension of the vectors is positive, and is that of the collection when the collection has one. |

### C160 — The document vector is the mean of the chunk vectors

Status: **proved**.
Proofs in `Thm/IngestProps.lean`.

| Theorem | Axioms | Says |
|---|---|---|
| `Ingest.C160_mean` | pcq | C160: the vector of the document has the embedder's dimension, and every coordinate lies between any bounds of that coordinate in the chunk vectors; with one chunk it is the vector of the chunk. |
| `Ingest.C160_stored` | pcq | C160: after a successful ingestion the node of the document holds the mean of the vectors the embedder gave for the chunks, and a chunk whose vector is not empty holds that vector. |

### C161 — The graph index of a store follows its table

Status: **partial**.
held and exact are proved for histories that do not write under an id the index has ever held (exact) or whose entry was removed (held), with the index as in Model/Hnsw (index_laws). Violated by the code: an update keeps the old vector in the index, a record removed and written again can never be reached, Clear/DeleteByDocID/ClearByDocID/DeleteCollection leave all entries, DeleteDocument can take entries of records that stay.
Proofs in `Thm/StoreIndex.lean`.

| Theorem | Axioms | Says |
|---|---|---|
| `Thm.StoreIndex.C161_held_partial` | pcq | After any history whose document removals take their chunks with them, every stored record is in the index: no record is lost to search because a write did not reach the index. |
| `Thm.StoreIndex.C161_exact_partial` | pcq | After any history of writes under new ids and removals that reach the index, the index holds exactly the stored records with exactly their vectors. |
| `Thm.StoreIndex.C161_delete` | pcq | A record removed by id is no longer in the index, and no other entry changes. |
| `Thm.StoreIndex.C161_deleteBatch` | pcq | Records removed by a list of ids are no longer in the index, and no other entry changes. |
| `Thm.StoreIndex.C161_deleteByFilter` | pcq | A record removed by a metadata filter is no longer in the index; a record that stays keeps its entry. |
| `Thm.StoreIndex.C161_update_violated` | pcq | Replacing the vector of a stored record does not reach the index: whatever the new vector, the index keeps the old one. |
| `Thm.StoreIndex.C161_rewrite_violated` | pcq | A record that was removed and is then written again is stored but can not be reached through the index: whatever the state, the index refuses it. |
| `Thm.StoreIndex.C161_bulk_violated` | pcq | Removing all records, the records of documents or a collection does not reach the index: it keeps every entry. |
| `Thm.StoreIndex.C161_document_violated` | pcq | Removing a document whose row is gone, on a connection without foreign keys, or with a failing storage layer, takes its chunks out of the index while the table keeps them: they are stored and cannot be found. |

### C162 — The inverted file of a store follows its table

Status: **partial**.
proved for writes under new ids with vectors of the index's dimension, with the index as in Model/Ivf (ivf_laws). Violated: an update lists the record twice and a later removal leaves one entry behind.
Proofs in `Thm/StoreIvf.lean`.

| Theorem | Axioms | Says |
|---|---|---|
| `Thm.StoreIvf.C162_exact_partial` | pcq | After any history of writes under new ids and removals that reach the index, a trained inverted file lists every stored record once and nothing else. |
| `Thm.StoreIvf.C162_update_violated` | pcq | Replacing a stored record lists it a second time, with the old vector still there; removing it then leaves one entry behind: the index lists a record that does not exist. |

### C163 — A written record is in the collection the caller names

Status: **partial**.
existence of the collection holds on enforcing connections only; violated on the other pooled connections.
Proofs in `Thm/CollAny.lean`, `Thm/StoreColl.lean`.

| Theorem | Axioms | Says |
|---|---|---|
| `Thm.StoreColl.C163_any_violated` | pcq | **C163, violated.** On a connection that does not enforce foreign keys every open store accepts a record for a collection number it does not have; the record then reads back without a collection. |
| `Thm.StoreColl.C163_upsert` | pcq | A record that was written is in the collection the caller asked for. |
| `Thm.StoreColl.C163_upsertBatch` | pcq | The same for every record of a batch that no later record of the batch replaces. |
| `Thm.StoreColl.C163_shown` | pcq | What a reader sees: a record written under the name of a collection shows that name. |
| `Thm.StoreColl.C163_unknown_refused` | pcq | A record under the name of a collection that does not exist is refused and the table does not change. |
| `Thm.StoreColl.C163_exists_partial` | pcq | On a connection that enforces foreign keys a written record is in a collection that exists. |
| `Thm.StoreColl.C163_exists_violated` | pcq | On any other connection of the pool a record can be written into a collection that does not exist; a reader then sees a record without a collection. |

### C164 — An inserted text can be read back with the embedder's vector

Status: **proved**.
Proofs in `Thm/Facade.lean`.

| Theorem | Axioms | Says |
|---|---|---|
| `Facade.C164_inserted` | pcq | A text that was inserted can be read back: its text, its metadata and the vector the embedder gave for it, adapted to the dimension of the store; no other record changed. |
| `Facade.C164_refused` | pq | A text that was refused changes no record: no embedder, an empty text, an embedder error or a store error. |
| `Facade.C164_reasons` | p | The reasons to refuse come in this order, before the store is asked. |

### C165 — A map of texts is inserted completely or not at all

Status: **partial**.
complete insertion and atomicity are proved for every visiting order; violated: too few vectors from the embedder panic (nothing is written), an empty text is skipped silently where InsertText refuses it.
Proofs in `Thm/Facade.lean`.

| Theorem | Axioms | Says |
|---|---|---|
| `Facade.C165_batch` | pq | After a batch every non-empty text of the map is stored under its id with the vector the embedder gave for it, and no other record changed: neither ids outside the map nor ids with an empty text. |
| `Facade.C165_failed` | p | A batch that does not succeed changes nothing, also when it panics. |
| `Facade.C165_panic_violated` | pcq | The batch panics exactly when the embedder returns fewer vectors than it was given texts. |
| `Facade.C165_agrees_violated` | pq | One text and a map of one text do not agree: the batch skips an empty text without an error. |

### C166 — The quick interface never overwrites a record

Status: **partial**.
violated: an empty text is accepted by Quick and refused by InsertText.
Proofs in `Thm/Details3.lean`, `Thm/Details4.lean`, `Thm/Facade.lean`.

| Theorem | Axioms | Says |
|---|---|---|
| `Facade.C166_returned` | p | C166: what is returned for a text: the id when the text could be embedded, whether or not it was stored; the empty id when there is no embedder or the embedder failed, and then nothing is written. |
| `Facade.C166_collection` | pq | C166: what Quick adds lies in the collection named, and in the default collection, which has number one, when none is named; a collection that does not exist is refused. |
| `Facade.C166_add` | pcq | A vector added under a fresh id can be read back and no other record changed: nothing that was stored is lost. |
| `Facade.C166_addText` | pcq | The same for a text. |
| `Facade.C166_failed` | pq | A failed call stores nothing; the plain one still hands out an id. |
| `Facade.C166_empty_violated` | p | The quick interface accepts an empty text that `InsertText` refuses. |

### C167 — Info reports how the database was opened

Status: **partial**.
violated: the similarity is always reported as cosine.
Proofs in `Thm/Facade.lean`.

| Theorem | Axioms | Says |
|---|---|---|
| `Facade.C167_info` | pcq | `Info` reports the path, the dimension and the index the database was opened with; an index that is reported is the one that is enabled. |
| `Facade.C167_similarity_violated` | – | The similarity it reports is "cosine" whatever the database was opened with. |

### C168 — Training learns a full set of cell centres that are means of stored vectors

Status: **partial**.
Violated in part: a cell that loses all its vectors gets the zero vector as its centre, and vectors of different dimensions make training panic. Proved otherwise on exact rational arithmetic: shape for all inputs, every centre a mean or zero, cost never above that of the chosen vectors and monotone in the number of rounds. For all inputs: a vector longer than the first makes training to two or more centroids panic; with a shorter one no round of averaging is ever finished.
Proofs in `Thm/Any4.lean`, `Thm/Details5.lean`, `Thm/KMeans.lean`.

| Theorem | Axioms | Says |
|---|---|---|
| `Train.C168_any_zero_violated` | pcq | C168 is violated whenever there are fewer different vectors than cells, however the first centres are drawn: unless training stops before the first mean is taken, one centre ends as the zero vector. |
| `Train.C168_longer_violated` | pcq | C168 is violated by every collection in which some vector is longer than the first: training to two or more centroids panics, whatever the random numbers are. |
| `Train.C168_shorter_violated` | pcq | C168 is violated by every collection in which some vector is shorter than the first: no round of averaging is ever finished. Training panics or its answer is the choice of first centroids. |
| `Train.C168_first` | pcq | **C168.** Without a round of averaging, each centroid has the length of the first vector and the coordinates of a stored vector, with zeros where that vector is too short; a centroid that was not chosen is empty. |
| `Train.C168_shape` | pcq | C168, shape: on at least `k` vectors of one dimension training never panics and learns exactly `k` centroids of that dimension, whatever the random numbers. |
| `Train.C168_mean_partial` | pcq | C168 as far as it holds: every learned centroid is the mean of some of the vectors or the zero vector. Missing: the zero vector is not a mean of the vectors (violated below). |
| `Train.C168_quality` | pcq | C168, quality: the sum of the squared distances to the closest learned centroid is never above that of some choice of `k` of the vectors as centroids. |
| `Train.C168_rounds` | pcq | C168, more rounds: with the same random numbers more rounds never give a worse result. |
| `Train.C168_zero_violated` | pcq | C168 is violated: with two equal vectors among three and three centroids one cell is empty and its centroid becomes the zero vector, which is far from every vector and the mean of none of them. |
| `Train.C168_mixed_violated` | pcq | C168 is violated: a vector shorter than the others makes training panic. |

### C169 — Training the index lists every stored record once, and a failed training changes nothing

Status: **partial**.
Violated: a failed retraining (fewer records than cells, or a failed query) leaves a trained, empty index, so searches over it succeed with nothing; asking for another number of cells loses the configured number of probed cells. Proved: success lists every record once from any previous index and makes full-probe search exact; refusals change nothing; records never touched.
Proofs in `Thm/Train.lean`.

| Theorem | Axioms | Says |
|---|---|---|
| `Train.C169_trained` | pcq | C169, success: on an open store in inverted-file mode whose records all have its dimension and are at least as many as the cells, training succeeds whatever the index was before, whatever the random numbers, and afterwards the index lists every stored record exactly once. |
| `Train.C169_search` | pcq | C169, search: after such a training a search over all cells reports the `k` closest of all stored records. |
| `Train.C169_refused` | pcq | C169, refusal: on a closed store, a store in another mode, or one that has no index and no dimension yet, the call fails and changes nothing. |
| `Train.C169_rows_partial` | pcq | C169, failure, as far as it holds: whatever happens, the records themselves are never touched. Missing: a failed training leaves the index as it was (violated below). |
| `Train.C169_failed_violated` | pcq | C169 is violated: training again with the same number of cells when fewer records than cells are left (or when the query fails) reports an error and leaves a trained index that lists nothing, so every search over it succeeds with no result although the records are there. |
| `Train.C169_probe_violated` | pcq | C169 is violated: asking for another number of cells throws away the number of cells to search that was set before; it is ten, or the number of cells if that is smaller. |

### C170 — A saved knowledge item reads back as it was saved

Status: **partial**.
Proved over all histories: fields, chunks, version, that every entity shown was found or given and is shown as last written, and that everything but the entities of other items stays. Partial: a mentioned entity is shown if its last type is 'entity' and the chunk has at most 29; entities of other items stay if the request writes shared entities as they are. Violated: saving over an item drops the document's access list and creation time (for every item and request); an entity given another type is not shown; entity nodes are shared, so another item's save renames or hides the entities an item shows; an entity given for a chunk that is not stored is left out silently.
Proofs in `Thm/KnowRecord.lean`.

| Theorem | Axioms | Says |
|---|---|---|
| `KnowRec.C170_saved` | pcq | C170, round trip: after any history, a save that succeeds is shown as it was given: title, content, source, author, metadata and collection (the default one if none was given), with one chunk for each part of the content; the version is one more than before, one for a new item. |
| `KnowRec.C170_entities` | pcq | C170, entities: every entity shown after a save was found in a part of the content or given in the request for one of the item's chunks, and is shown by the name under which the request last wrote it. |
| `KnowRec.C170_shown_partial` | pcq | C170, entities, the other way round as far as it holds: an entity found in a part of the content or given for its chunk is shown by the name under which the request last wrote it, if that was with the type `entity` and if no more than 29 entities were found in the part and given for its chunk. Missing: entities with another type (never shown, `C170_typed_violated`) and chunks with more entities (only 32 neighbours are looked at). |
| `KnowRec.C170_others_partial` | pcq | C170, other items, as far as it holds: whether it succeeds or not, a save changes nothing of what is shown of another item, if it names none of that item's chunks for its entities and writes each entity the other item mentions with the name and the type it has. Missing: entities written differently (violated below, since entities are shared). |
| `KnowRec.C170_others` | pcq | C170, everything but the entities: a save changes nothing of the rest that is shown of another item, whatever it does to entities. |
| `KnowRec.C170_acl_violated` | pcq | C170 is violated: saving over an item forgets who may read it and when it was created, for every item and request. |
| `KnowRec.C170_shared_violated` | pcq | C170 is violated: saving an item in whose text the word "ada" is found changes the name of the entity that another item shows, and giving the entity a type in an item of its own hides it there. |
| `KnowRec.C170_lost_violated` | pcq | C170 is violated: an entity given for a chunk that is not there is left out silently, the save succeeds. |
| `KnowRec.C170_typed_violated` | pcq | C170 is violated: an entity that was given a type of its own is not shown. |

### C171 — An update of a knowledge item changes what it names and nothing else

Status: **partial**.
Proved over all histories: named fields set, unnamed title, content, source, author, collection and (as text) metadata kept, version, everything but the entities of other items. Violated: any update naming title, content, collection or metadata drops the access list, the creation time, the chunk size and all entities that are not found again (universal theorem and a witness); metadata values that are not strings become strings; an update can hide entities another item shows. The guarded theorems cover updates of source, author and entities only, and other items whose entities are written as they are.
Proofs in `Thm/KnowRecord.lean`.

| Theorem | Axioms | Says |
|---|---|---|
| `KnowRec.C171_fields` | pcq | C171, asked and not asked: after any history, an update that succeeds sets what it names and keeps the rest of title, content, source, author, collection and metadata as they were shown before, and raises the version by one. |
| `KnowRec.C171_rest_partial` | pcq | C171, the rest, as far as it holds: an update that names none of title, content, collection and metadata also keeps the chunks, the readers, the creation time and, if it names no entities, the entities. Missing: the same for the other updates (violated below). |
| `KnowRec.C171_forgets_violated` | pcq | C171 is violated: an update that names a title, a content, a collection or metadata forgets who may read the item and when it was created, and keeps only the entities found again in the content or named in the request, for every item and request. |
| `KnowRec.C171_others_partial` | pcq | C171, other items, as far as it holds: whether it succeeds or not, an update changes nothing of what is shown of another item, if it names none of that item's chunks for its entities and writes each entity the other item mentions with the name and the type it has. Missing: entities written differently (violated below). |
| `KnowRec.C171_others` | pcq | C171, everything but the entities: an update changes nothing of the rest that is shown of another item, whatever it does to entities. |
| `KnowRec.C171_shared_violated` | pcq | C171 is violated in the same way by an update of another item. |
| `KnowRec.C171_rename_violated` | pcq | C171 is violated: changing only the title of an item of two chunks with an entity and readers leaves one chunk, no entity and no readers. |
| `KnowRec.C171_metadata_violated` | pcq | C171 is violated: changing only the source turns a metadata value that is not a string into one. |

### C172 — Snippets are short, faithful and valid text

Status: **partial**.
Bytes are modelled (UTF-8 encoding of every code point). Proved: bound and whole text for all inputs; the prefix form under the exact guard that byte 177 starts a character. Violated: for every longer text with a character straddling byte 177 the snippet is not valid UTF-8.
Proofs in `Thm/Reflect.lean`.

| Theorem | Axioms | Says |
|---|---|---|
| `Thm.Reflect.C172_bound` | pcq | C172: a snippet is never longer than 180 bytes. |
| `Thm.Reflect.C172_whole` | pcq | C172: a text that fits is shown whole: the same words in the same order, one space between them. |
| `Thm.Reflect.C172_prefix_partial` | pcq | C172: a longer text is shown as a beginning of it followed by three dots, if byte 177 is the start of a character (for example, if the text is ASCII). |
| `Thm.Reflect.C172_valid_violated` | pcq | C172 fails otherwise: whenever a character of the text straddles byte 177, the snippet is not valid text. |

### C173 — Reflect's text lists what was recalled

Status: **partial**.
Proved for memories of the four known types; a memory of any other type (Retain accepts any) is dropped from the text. The cut at four bytes per token is valid text exactly when it falls between two characters.
Proofs in `Thm/Reflect.lean`.

| Theorem | Axioms | Says |
|---|---|---|
| `Thm.Reflect.C173_layout_partial` | pcq | C173: the text lists the recalled memories of the four types, each exactly once, in the section of its type and in the order recalled, with nothing else in between. |
| `Thm.Reflect.C173_unlisted_violated` | pcq | C173 fails for memories of any other type, which `Retain` accepts: they are recalled, and returned beside the text, but the text does not mention them. |
| `Thm.Reflect.C173_none` | pcq | C173: nothing recalled, and the text says so. |
| `Thm.Reflect.C173_cut_partial` | pcq | C173: the text returned is a beginning of the whole text, all of it when no budget is set or the budget suffices, and it ends at a character if the cut does. |
| `Thm.Reflect.C173_cut_violated` | pcq | C173 fails otherwise: whenever the cut falls inside a character the text returned is not valid. |

### C174 — A memory comes back as it was retained

Status: **partial**.
Proved under the guard: no reserved metadata key, no comma in and no empty entity; the metadata never comes back (general negation), an entity with a comma never does, and metadata under a reserved name overwrites bank or type. Confidence is kept to four decimals, time to the second. Number formatting is represented by the number printed.
Proofs in `Thm/ReflectMem.lean`.

| Theorem | Axioms | Says |
|---|---|---|
| `Thm.ReflectMem.C174_kept_partial` | pcq | C174: after a memory has been retained there is one record with its id, it reads as that memory, and the records with other ids are as before: if its metadata uses none of the reserved names and no entity has a comma or is the empty text. |
| `Thm.ReflectMem.C174_metadata_violated` | pcq | C174 fails for metadata: whatever metadata is retained, none comes back. |
| `Thm.ReflectMem.C174_comma_violated` | pcq | C174 fails for an entity with a comma: the entities never come back as they were. |
| `Thm.ReflectMem.C174_moved_violated` | pcq | C174 fails for metadata under a reserved name: a value given for `bank_id` moves the memory to that bank, and one given for `memory_type` changes its type. |

### C175 — An observation comes back as it was added

Status: **partial**.
Proved: listed exactly once with content, confidence and time. Sources, kind and reasoning never come back: they are read from metadata that scoredEmbeddingToMemory leaves empty. Fewer than 100 matching records are assumed (TopK 100).
Proofs in `Thm/ReflectMem.lean`.

| Theorem | Axioms | Says |
|---|---|---|
| `Thm.ReflectMem.C175_listed_partial` | pcq | C175: an observation that was added is among the observations of its bank, exactly once, with its text, confidence (to four decimals) and time (to the second). `ord` is any order of the search. |
| `Thm.ReflectMem.C175_sources_violated` | pcq | C175 fails for the other fields: no observation that is listed has its sources, its kind or its reasoning. |
| `Thm.ReflectMem.C175_bank` | pcq | C175: only observations of the bank asked for are listed. |

### C176 — The memory system works with the collection it is configured for

Status: **partial**.
Built on the record store model. Proved for the default name; for every other name each Retain is refused on a database without a collection called memories, because getCollection ignores the configuration.
Proofs in `Thm/ReflectMem.lean`.

| Theorem | Axioms | Says |
|---|---|---|
| `Thm.ReflectMem.C176_default_partial` | pcq | C176: with the default name, or with the name "memories", a memory with a vector that fits is accepted. |
| `Thm.ReflectMem.C176_custom_violated` | pcq | C176 fails for every other name: on a database without a collection "memories", every memory is refused, whatever its vector. |

### C177 — Search refuses unusable queries and answers the others

Status: **partial**.
Equivalences for all stores and queries. Violated for the empty query: validation comes after adaptation, so a store that pads or truncates answers it. In SmartAdapt mode the padding is random noise of level zero for such a query; that mode is covered by the general equivalence.
Proofs in `Thm/SearchRefuse.lean`.

| Theorem | Axioms | Says |
|---|---|---|
| `Thm.SearchRefuse.C177_same_dim` | pcq | C177: a query of the store's dimension (any, if the store has none yet) is answered exactly if the store is open and the query has components that are all numbers. This holds for every index and all options. |
| `Thm.SearchRefuse.C177_other_dim_partial` | pcq | C177: a query of another dimension is answered exactly if the store is open and its policy makes a usable vector of the store's dimension out of it. |
| `Thm.SearchRefuse.C177_closed` | pcq | C177: a closed store says so, whatever the query. |
| `Thm.SearchRefuse.C177_filter` | pcq | C177: the search with a metadata filter is refused exactly when the search without is. |
| `Thm.SearchRefuse.C177_empty_violated` | pcq | C177 fails for a query without components on a store that pads or truncates: every such store that is open and has a dimension answers it. |

### C178 — A quantised index stands for the vectors that were stored

Status: **partial**.
C178_open_partial and C178_batch_partial give closeness for the first 1000 records and closeness to the clamped vector for the rest; C178_fresh_violated holds for every sequence of records: Upsert trains an untrained quantizer on the rows already stored, which at the second record is the first record alone.
Proofs in `Thm/Details9.lean`, `Thm/QuantIndex.lean`.

| Theorem | Axioms | Says |
|---|---|---|
| `QuantIndex.C178_batch_rows` | pcq | C178: after a batch that succeeds, the table holds for every id of the batch the vector that the batch gives last for it, and for every other id what it held before. After a batch that fails it holds what it held before. |
| `QuantIndex.C178_open_partial` | pcq | C178: opening a store with scalar quantization on, the index sees every record within a step of its vector if the record is one of the first 1000, and within a step of the nearest vector in the range of these otherwise. |
| `QuantIndex.C178_batch_partial` | pcq | C178: the same for a batch of new records written to a store without records. |
| `QuantIndex.C178_off` | pcq | C178: without quantization the index works with the vectors of all new records as they are. |
| `QuantIndex.C178_trained_partial` | pcq | C178 (partial): new records written one by one to a store whose quantizer is trained are seen within a step of the nearest vector of the trained range. The claim asks for the vector itself. |
| `QuantIndex.C178_fresh_violated` | pcq | C178 is violated: in a new store with scalar quantization, whatever records are written one by one after the first, the index sees each of them as the vector of the first, up to the epsilon, because the quantizer is trained on the first record alone. |
| `QuantIndex.C178_retrain_violated` | pcq | C178 is violated: training again, which the interface offers for stores in use, moves the vectors the index has kept: after opening a store with the records 0 and 1, writing a record with any larger value and training, the index sees 1 as that value. |
| `QuantIndex.C178_batch_panics_violated` | pcq | C178 is violated: a batch whose first vector is too short panics while the quantizer is not trained, instead of being refused. |

### C179 — A quantised index survives closing, crashing and reopening

Status: **partial**.
C179_history and C179_saved cover complete snapshots for every history of openIndex and upserts; C179_crash_between_partial covers the crash between the statements when the quantizer on disk is current.
Proofs in `Thm/QuantSnap.lean`.

| Theorem | Axioms | Says |
|---|---|---|
| `QuantIndex.C179_saved` | pcq | C179: a snapshot that was written completely gives the index back: after reopening with the same bit width, every record is seen as before closing, whatever was on disk before and whether or not quantization is still on. |
| `QuantIndex.C179_history` | pcq | C179: over histories: open a store, write any records, close it and open it again. |
| `QuantIndex.C179_crash_before` | p | C179: a crash before the first statement leaves the disk as it was. |
| `QuantIndex.C179_crash_between_partial` | pcq | C179 (partial): a crash between the two statements does no harm if the quantizer on disk is the current one. |
| `QuantIndex.C179_first_snapshot_violated` | pcq | C179 is violated: when the first snapshot of a store is cut off between its two statements, none of the records kept as codes is seen after reopening; the index is not built again, because there is a snapshot. |
| `QuantIndex.C179_bits_violated` | pcq | C179 is violated: reopening with a bit width out of range (quantization switched off by an empty configuration) loses the quantizer: none of the records kept as codes is seen. |

### C180 — The tools offered to language models are the tools that answer

Status: **partial**.
The tables are transcribed from the source; json.Unmarshal and JSON Schema are modelled for the types that occur. C180_map_violated and C180_integer_violated hold for every tool with such a field and every accepted argument object.
Proofs in `Thm/Tools.lean`.

| Theorem | Axioms | Says |
|---|---|---|
| `Tools.C180_same_tools` | pq | C180: a name is answered by `Call` exactly if it is published, and exactly if it is a tool of the MCP server, and both use the same request and the same method. |
| `Tools.C180_names_unique` | – | C180: no name is published twice. |
| `Tools.C180_fields` | p | C180: every published property is a field of the request and the other way round, of a matching type, and the properties published as required are the fields that are not optional. |
| `Tools.C180_decodes_partial` | pcq | C180 (partial): arguments that follow the published schema of a tool are decoded, if integers are written without fraction and exponent and fit into 64 bits, map values are strings, and no other key is a published name in another spelling. |
| `Tools.C180_map_violated` | pcq | C180 is violated: for every tool with a map of strings (metadata of documents and knowledge), arguments that follow the schema are refused when the map has a number in it, which the schema allows. |
| `Tools.C180_integer_violated` | pcq | C180 is violated: for every tool with an integer argument, the number 1.0, which the schema allows, is refused. |
| `Tools.C180_received` | pcq | C180: a field receives the last value given under its name. |

### C181 — Metadata conditions mean the stored text

Status: **partial**.
The format %g is a parameter; GoFormat states Go's rule for whole numbers. Floats that are not whole numbers are compared through the parameter only.
Proofs in `Thm/MetaCompare.lean`.

| Theorem | Axioms | Says |
|---|---|---|
| `MetaCompare.C181_text` | p | C181: a stored text meets a condition exactly if it is the text the condition stands for. |
| `MetaCompare.C181_filter` | pq | C181: a search with conditions returns the results that carry, for every condition, its text. |
| `MetaCompare.C181_number_partial` | pcq | C181 (partial): a whole number of up to six digits, given as an integer or as a float, finds the records whose text is that number. |
| `MetaCompare.C181_large_violated` | pcq | C181 is violated: a whole number of seven digits or more given as a float, which is what decoding JSON produces, does not find the records whose text is that number. |
| `MetaCompare.C181_type_violated` | pcq | C181 is violated: a condition of another type, for example `int64` or `float32`, is met by no stored text, so that the search returns nothing, without an error. |

### C182 — A CSV export is readable, and success means it was written

Status: **partial**.
Proved: the CSV text is read back exactly by an independent RFC 4180 reader for all field contents; JSON and JSON lines exports that report success are complete. Violated: the error of the last Flush of the CSV writer is not looked at, so up to the last 4096 bytes may be missing although success is reported (an export of at most 4096 bytes reports success on every disk); the CSV does not name the collection; a vector with NaN or infinities is written as an empty field without an error, where the JSON formats refuse.
Proofs in `Thm/Csv.lean`.

| Theorem | Axioms | Says |
|---|---|---|
| `Csv.C182_reads_back_partial` | pcq | **C182**: an export in CSV of an open store has a text that every CSV reader reads back as the column names and one row for each record, in order, with the fields exactly as they are; when the export succeeds, all but at most the last 4096 bytes of the text are in the file, and nothing else; when the disk has room for the text the export succeeds and all of it is. |
| `Csv.C182_success_violated` | pcq | **C182**: an export in CSV of at most 4096 bytes reports success on every disk, also on one that takes nothing. |
| `Csv.C182_lines_full` | pq | **C182**: an export as JSON lines that reports success has written the text of every record, in order. |
| `Csv.C182_whole_full` | pq | **C182**: an export as one JSON text that reports success has written all of it. |
| `Csv.C182_collection_violated` | pcq | **C182**: the CSV of a store does not say in which collection a record is: it is the same for every choice. |
| `Csv.C182_vector_violated` | pcq | **C182**: a vector JSON cannot express is written as an empty field, and no error is reported: the export of such a store succeeds whenever there is room. |

### C183 — An export to a file is complete or leaves the file as it was

Status: **partial**.
Proved: on success the path holds exactly what was written; JSON lines files are never cut off. Violated: the file is emptied before the export starts and removed when it fails, so every failure (also a closed store) destroys the previous file; CSV files may be cut off (C182).
Proofs in `Thm/Csv.lean`.

| Theorem | Axioms | Says |
|---|---|---|
| `Csv.C183_success` | p | **C183**: when `DumpToFile` succeeds, the path holds what the export wrote, from its first byte. |
| `Csv.C183_never_half` | pq | **C183**: a JSON lines file written by `DumpToFile` is never cut off: the path holds the text of every record, or nothing, or, when the file could not be created, what was there. |
| `Csv.C183_kept_partial` | – | **C183**: `DumpToFile` on a path it cannot create a file at leaves the path as it was. |
| `Csv.C183_failure_violated` | p | **C183**: every other failure destroys the file that was at the path, whatever it held, also when the store was closed and nothing could have been written. |
| `Csv.C183_closed_violated` | pcq | **C183**: on a closed store the old file is always lost, in every format. |
| `Csv.C183_csv_violated` | pcq | **C183**: a CSV file written by `DumpToFile` can be cut off although success is reported. |

### C184 — An index exported to a file can be imported again

Status: **partial**.
Proved: graph index round trip, inverted file Save/Load round trip, cut graph files are refused at every point, a successful export is complete. Violated: a refused file has already emptied or overwritten the index in memory; a store that uses only the inverted file can export but every import is refused; the file of an inverted file imported into a graph index store reports success and overwrites M and EfConstruction of the graph index; an export without an index empties the file that was there.
Proofs in `Thm/IndexFile.lean`.

| Theorem | Axioms | Says |
|---|---|---|
| `IndexFile.C184_graph_back` | pq | **C184**: a graph index exported from one store and imported into any open store that uses the graph index is the same index there, whatever that store held before; its inverted file is untouched. |
| `IndexFile.C184_cells_back` | p | **C184**: an inverted file saved and loaded is what it was, whatever the index held before. |
| `IndexFile.C184_cut_refused` | pq | **C184**: a graph index file that was cut off anywhere is refused. |
| `IndexFile.C184_failed_violated` | pq | **C184**: a refused graph file empties the index: after the import of a file cut off after its head, which reports an error, an open store that uses the graph index has no node left, whatever it held. |
| `IndexFile.C184_failed_partial` | p | **C184**: what a failed import leaves alone: a closed store, a missing file and a store that does not use the graph index stay as they were. |
| `IndexFile.C184_cells_violated` | pq | **C184**: a store that uses only the inverted file can export it but never import it. |
| `IndexFile.C184_kind_violated` | p | **C184**: the file of an inverted file imported into a store that uses the graph index reports success, loads the inverted file, and overwrites two parameters of the graph index with the numbers of the file. |
| `IndexFile.C184_export_violated` | p | **C184**: an export on a store without an index reports an error and empties the file that was there. |
| `IndexFile.C184_export_full` | pq | **C184**: an export that reports success has written the whole index; a closed store and a path where no file can be made leave the path as it was. |

### C185 — A text that was inserted is found by searching for it

Status: **partial**.
Proved for stores without an index and every similarity that ranks no vector above the query itself (cosine, Euclidean), given that the adapted vector has the dimension of the store and finite components. Violated with the dot product, where a longer vector outranks the text itself. With an index the record must be among the proposals (C09, C32, C108).
Proofs in `Thm/Any4.lean`, `Thm/Counts.lean`, `Thm/TextSearch.lean`.

| Theorem | Axioms | Says |
|---|---|---|
| `Facade.C185_any_violated` | pcq | C185 is violated for every store and every similarity: when as many records as are asked for are more similar to the query than the record whose vector is the query itself, as longer vectors are by the dot product, the search for its text does not return it. |
| `Facade.C185_hybrid_refused` | pcq | C185: a hybrid text search is refused without an embedder, for an empty query, when the embedder fails and when the hybrid search of the embedded query is refused, and in no other case. |
| `Facade.C185_hybrid` | pcq | C185: every hit of a hybrid text search is a stored record, each once; the scores are the rank fusion with constant 60 of the two lists, and the best come first, at most as many as asked for. |
| `Facade.C185_present` | pcq | C185: in every state in which a record has the vector of the query text, the search for the text returns this record with the score of the vector with itself, unless as many records as were asked for score at least as well. No index. |
| `Facade.C185_found_partial` | pcq | C185: a text that was just inserted is found by searching for it, in a store without an index whose similarity ranks no vector above the query itself: the record is in the answer, with its text, unless all records of the answer are as similar to the query as the query itself. |
| `Facade.C185_refused` | pcq | C185: the text searches are refused without an embedder, for the empty text and when the embedder fails, and for no other reason than those of the search with the embedder's vector. |
| `Facade.C185_collection` | pcq | C185: every hit of a text search in a collection is in the collection. |
| `Facade.C185_dot_violated` | pcq | **C185**: with the dot product, a text that was just inserted is not found by searching for it: a record with a longer vector is ranked above it. |

### C186 — Chat sessions and messages are accepted exactly when they should be, and are kept

Status: **partial**.
Proved for all histories. Violated: foreign keys are switched on for one connection of the pool only, so on the others a message for a session that does not exist is accepted; the guarded theorem covers histories on enforcing connections.
Proofs in `Thm/ChatWrites.lean`.

| Theorem | Axioms | Says |
|---|---|---|
| `Chat.C186_session` | pcq | **C186**: a session is accepted exactly when the store is open and no session has its id; it can then be read back, no other session changes, and a refused one changes nothing. |
| `Chat.C186_session_kept` | pcq | **C186**: a session never changes or vanishes, over every history in which the store stays open. |
| `Chat.C186_message` | pq | **C186**: a message is accepted exactly when the store is open, no message has its id and, on a connection that enforces foreign keys, its session exists; then exactly this message is added, and a refused one changes nothing. |
| `Chat.C186_owned_partial` | pq | **C186**: over every history on connections that enforce foreign keys, every message belongs to a session. |
| `Chat.C186_orphan_violated` | pq | **C186**: on a connection that does not enforce foreign keys every fresh message is accepted in every open store, also when its session does not exist. |
| `Chat.C186_vectors` | pq | **C186**: no stored message has an empty vector, so vector searches return only messages with a vector to compare. |
| `Chat.C186_nobody` | pcq | **C186**: a search over the messages of no user, or for no text or vector, is empty, in every state. |

### C187 — A memory is what was last saved or updated

Status: **proved**.
Proofs in `Thm/MemoryWrites.lean`.

| Theorem | Axioms | Says |
|---|---|---|
| `Memory.C187_save` | pcq | C187, saving: whatever was stored before, a save that succeeds makes a read of the id return the content, owner's bucket, namespace and time to live of this request, the vector of the content, and an expiry counted from now. |
| `Memory.C187_update` | pcq | C187, updating: what the request does not mention stays (content, vector, owner, namespace, time to live), what it mentions is replaced; the expiry is counted again from now. |
| `Memory.C187_delete` | pcq | C187, deleting: the memory is gone, also when the state is any other state the calls lead to; afterwards its bucket exists exactly if another memory lies in it. |
| `Memory.C187_others` | pcq | C187, the others: a call changes no read of any other id, whether it succeeds or not, in every state the calls lead to. |

### C188 — Which memory requests are refused and what they address

Status: **proved**.
Proofs in `Thm/MemoryWrites.lean`.

| Theorem | Axioms | Says |
|---|---|---|
| `Memory.C188_save_refused` | pcq | C188: a save is refused exactly when the id is empty, the content is blank, the scope is not known or lacks its owner, or the embedder fails; then no memory changes. |
| `Memory.C188_never_blank` | pcq | C188: no memory ever has a blank content. |
| `Memory.C188_scope` | pcq | C188: what a request addresses. The scope is the one named (in any case), or, when none is named, the session if one is given, else the user if one is given, else global; a user or session scope without its owner is refused, as is any other scope. |
| `Memory.C188_default` | pcq | C188: leaving the namespace out (or blank) is the same as naming "default". |

### C189 — Keyword search of memories ranks by the best query

Status: **proved**.
Proofs in `Thm/MemoryWrites.lean`.

| Theorem | Axioms | Says |
|---|---|---|
| `Memory.C189_best` | pcq | C189: a keyword search of memories lists each memory at most once, only live memories of the bucket that a query finds, each with the best score any of the queries gives it, best first; a memory that is left out is not better than any listed, and is left out only when the list is full. |

### C190 — A memory record says what was saved

Status: **proved**.
Proofs in `Thm/MemoryRecord.lean`.

| Theorem | Axioms | Says |
|---|---|---|
| `MemRec.C190_save` | pcq | C190, saving: the record read afterwards says what was saved: the content, the role (or "memory"), scope and namespace in force, the importance, the time to live with the expiry counted from now, and every metadata entry of the caller except the six keys of the system. The creation time is that of the first save. |
| `MemRec.C190_update` | pcq | C190, updating: what is not mentioned stays, what is mentioned is replaced, metadata entries are merged; the keys of the system and the creation time cannot be changed this way. |
| `MemRec.C190_delete` | pq | C190, deleting: the memory is gone and every other one is read as before, whatever the state. |
| `MemRec.C190_others` | pcq | C190, the other memories: a save or an update of one memory, successful or not, leaves every other one as it was read before. |
| `MemRec.C190_refused` | pcq | C190: a save that is refused, an update of a memory that is not there and one with a blank text change nothing. |

### C191 — A memory record names its user and session

Status: **partial**.
True in the scope of a user (ids without a colon). In the global scope and in sessions shared by users the record names the user whose save created the bucket. The session reported is the internal bucket name. A semantic search reports no user at all (memory_api.go:163 passes an empty user).
Proofs in `Thm/MemoryAll.lean`, `Thm/MemoryRecord.lean`.

| Theorem | Axioms | Says |
|---|---|---|
| `MemRec.C191_first_violated` | pcq | C191 fails for every state: a memory saved into a bucket that exists already is reported with the user whose save made the bucket, whoever saved it. |
| `MemRec.C191_user_partial` | pcq | C191 for memories in the scope of a user, when user and session ids have no colon: after any history a saved memory is reported with the id of the user who saved it. Missing: the other scopes (see `C191_global_violated`) and ids with a colon. |
| `MemRec.C191_global_violated` | pcq | C191 fails in the global scope (and for sessions shared by users): the user reported is the one whose save made the bucket. |
| `MemRec.C191_session_violated` | pcq | C191 fails for the session: the record never names the session the memory was saved for, but an internal name that contains it. |
| `MemRec.C191_semantic_violated` | pq | C191 fails in a semantic search: no user is reported, whoever saved the memory. |

### C192 — Knowledge search shows documents

Status: **proved**.
Proofs in `Thm/KnowSearch.lean`.

| Theorem | Axioms | Says |
|---|---|---|
| `KnowSearch.C192_hits` | pcq | C192: what a successful knowledge search shows. Every hit stands for one document (a chunk without a document stands for itself), no two for the same; its score is that of its best chunk, its snippet is made from the first of its best chunks unless that is blank, and always from one of its chunks; title, source, author and metadata are those of the stored document; its chunk ids and entities are exactly those of its chunks, each once. Every retrieved chunk is listed under a hit, and hits come by descending score. For all retrieved chunks, documents and every sort that sorts. |
| `KnowSearch.C192_refused` | pcq | C192: a search is refused for a blank query; otherwise it fails exactly when the retrieval fails or a document of a retrieved chunk cannot be loaded: one missing document costs the whole answer. |
| `KnowSearch.C192_passes_through` | pcq | C192: the chunks, entities and context of the answer are those of the retrieval, and the query is repeated. |

### C193 — Search hints reach the search

Status: **partial**.
With an embedder and any mode but lexical SearchKnowledge builds the semantic query from Query alone: entity names, keywords and alternate queries have no effect, although the instructions given to models ask for them (C193_hints_violated, for all requests).
Proofs in `Thm/KnowSearch.lean`.

| Theorem | Axioms | Says |
|---|---|---|
| `KnowSearch.C193_hints_violated` | pcq | C193, broken: with an embedder and any mode but "lexical", entity names, keywords and alternate queries of the request have no effect on the outcome, whatever they are. |
| `KnowSearch.C193_hints_partial` | pcq | C193 where it holds: without an embedder, or in lexical mode, the whole request reaches the lexical retrieval. |
| `KnowSearch.C193_limits` | pcq | C193: the limits of the request reach the semantic retrieval, with the documented defaults for those not given. |

### C194 — Reading many graph rows agrees with reading one

Status: **proved**.
Proofs in `Thm/GraphRead.lean`.

| Theorem | Axioms | Says |
|---|---|---|
| `Graph.C194_nodes` | pq | C194: after any history, reading several nodes returns exactly the nodes that reading the ids one by one finds, each once however often its id is given; ids that are not there are left out without an error. The only failure is a list of more ids than a statement can bind. |
| `Graph.C194_edges` | pq | C194 for edges: the edges are those found at their source. |
| `Graph.C194_set` | pcq | C194: which ids are asked for matters, not their order or repetition. |
| `Graph.C194_lookups` | pcq | C194: the lookups that paths and ranked results are built from give what reading the id alone gives. |

### C195 — Errors can be told apart

Status: **partial**.
GetCollection, DeleteCollection, GetNode, DeleteNode and DeleteEdge build their 'not found' errors without wrapping ErrNotFound, so callers cannot recognise them (C195_collection_violated, for every name).
Proofs in `Thm/Errors.lean`.

| Theorem | Axioms | Says |
|---|---|---|
| `Errors.C195_is` | pcq | C195: `errors.Is` answers yes exactly when the target is among the causes, for errors nested to any depth. |
| `Errors.C195_wrap` | pq | C195: wrapping with an operation name makes an error of an error and nothing of nothing, keeps every cause, and the text names the operation and ends with the text of the cause. |
| `Errors.C195_not_found_partial` | pcq | C195: for records, documents, sessions, entities with several vectors and memories, "not there" is recognised as `ErrNotFound`, however often the caller wraps the error. |
| `Errors.C195_collection_violated` | pq | C195, broken for collections and for the graph: a missing collection, node or edge is never recognised as `ErrNotFound`, whatever its name (`a` and `b` are new values, not the sentinel). |

### C196 — Dimension analysis counts the stored vectors

Status: **partial**.
When two dimensions are equally frequent the primary dimension depends on the map order, so two runs can differ (C196_tie_violated).
Proofs in `Thm/DimStats.lean`, `Thm/Wider.lean`.

| Theorem | Axioms | Says |
|---|---|---|
| `DimStats.C196_analysis` | pcq | C196: for every list of vectors and every order of the map: the counts list exactly the dimensions that occur, each once with the number of vectors that have it; the total is the number of vectors; the primary dimension is one that no other beats, with its count; migration is recommended exactly when it covers less than four fifths of the vectors. |
| `DimStats.C196_empty` | pcq | C196: nothing is counted for no vectors. |
| `DimStats.C196_same_partial` | pcq | C196: the answer does not depend on the order of the map when one dimension is more frequent than every other. |
| `DimStats.C196_tie_violated` | pcq | C196, broken for ties: two vectors of different dimensions, and two runs report different primary dimensions. |
| `DimStats.C196_any_tie_violated` | pcq | C196, broken for every tie: each of the most frequent dimensions is the one reported for some order of the map. |

### C197 — The text of an observation mentions all it rests on

Status: **partial**.
Recalled memories of type observation (and of unknown types) get no line in the text (C197_observations_violated, for all lists).
Proofs in `Thm/ObserveText.lean`.

| Theorem | Axioms | Says |
|---|---|---|
| `Thm.ObserveText.C197_layout_partial` | pcq | C197: the text names the question and has exactly the non-empty ones of four sections, in order: recalled facts, recalled experiences, the observations made now with their confidence, recalled opinions; each section has exactly its lines, one for each entry, in the order recalled. |
| `Thm.ObserveText.C197_observations_violated` | pcq | C197 fails for recalled observations (and memories of any unknown type): the text is the same as if they had not been recalled, whatever they say. |

### C198 — Log lines are whole and in order

Status: **partial**.
A logger made with With has a mutex of its own over the same writer; lines of the two can be mixed (C198_mixed_violated). Loggers that share one mutex are covered by C198_lines_partial.
Proofs in `Thm/Any4.lean`, `Thm/Logger.lean`.

| Theorem | Axioms | Says |
|---|---|---|
| `Logger.C198_any_violated` | pcq | C198 is violated for every logger and every logger made from it with `With`: for any two calls that are loud enough, in two goroutines, some schedule puts the whole line of the one inside the line of the other, after its first piece. |
| `Logger.C198_lines_partial` | pcq | C198 for goroutines that share one logger: at every moment of every schedule the output is a sequence of whole lines and perhaps a beginning of one more; the lines of each goroutine are a beginning of its calls at or above the minimum level, in their order; when all are done nothing is missing. |
| `Logger.C198_line` | pq | C198: what a line says: the time, the level, the pairs of the logger, the pairs of the call and the message; a call below the minimum level writes nothing. For an even number of keys and values no pair is lost. |
| `Logger.C198_mixed_violated` | p | C198, broken for loggers made with `With`: they write to the same place without excluding each other, and lines get mixed. |

### C199 — A batch of queries is routed as each query alone

Status: **proved**.
Proved for every router state (with or without store, cache, failed caches): the batch equals routing each query alone in the initial state, because a route whose vectors could not be had contributes nothing the first time and nothing later.
Proofs in `Thm/RouteBatch.lean`.

| Theorem | Axioms | Says |
|---|---|---|
| `Router.C199_each` | pq | **C199.** The results of a batch are, query by query and in their order, the results of routing each query alone in the state before the batch. All embedders that answer alike during the call, all states and histories (whatever is cached). |
| `Router.C199_fails` | pq | **C199.** A batch fails exactly when a query that is not empty cannot be embedded; then there are no results. |
| `Router.C199_keeps` | pq | **C199.** Routing changes no route: names, utterances and what is stored stay, whether the batch fails or not. |
| `Router.C199_hybrid` | pcq | **C199.** The same for the router that combines the dense and the sparse one. |
| `Router.C199_hybrid_fails` | pcq | **C199.** A batch of the combined router fails exactly when a query that is not empty cannot be embedded. |

### C200 — TopTerms gives the terms of the greatest weights

Status: **proved**.
Proved; sort.Slice and map order are parameters.
Proofs in `Thm/RouteBatch.lean`.

| Theorem | Axioms | Says |
|---|---|---|
| `Router.C200_top` | pcq | **C200.** `TopTerms` with a positive `k` gives the `k` terms of the greatest weights, best first, with their weights; all of them when there are not more than `k`. |
| `Router.C200_all` | pq | **C200.** With `k` not positive it gives all terms with their weights, best first. |
| `Router.C200_own` | pq | **C200.** No term comes twice when none is twice in the vector, and every weight is the term's own. |

### C201 — Index statistics describe the contents

Status: **partial**.
HNSW proved in full over all histories. IVF: holds under the tidy histories of C34; retraining makes Stats report vectors and only empty clusters (negation for all states). LSH: holds when no present id is inserted again; re-inserting leaves duplicate items (negation).
Proofs in `Thm/Counts.lean`, `Thm/IndexStats.lean`.

| Theorem | Axioms | Says |
|---|---|---|
| `Hnsw.C201_links` | pcq | C201: after any history the number of links reported is that of the live nodes, and the reported entry point is empty or a stored id. |
| `Hnsw.C201_hnsw` | pcq | **C201 (HNSW).** After any history the statistics count the ids present and those deleted: the live nodes are as many as `Size` says and as many as the ids the history left, live and deleted make up the total, each level counts the live nodes of that level, the maximum level is the greatest among live nodes (0 without any), the average is the number of links per live node. Whatever the order in which the nodes are visited. |
| `Ivf.C201_ivf_partial` | pcq | **C201 (IVF), partial.** After a history that neither deletes an entry before later ones of its cluster nor trains again over entries, the statistics exist, count the entries the history left, the smallest and the greatest cluster size are sizes of clusters and bound all of them, and the average times the number of clusters is the number of entries. |
| `Ivf.C201_ivf_retrain_violated` | pcq | **C201 (IVF), violated.** After training again over entries the statistics count the entries and say that every cluster is empty. |
| `Lsh.C201_lsh_partial` | pcq | **C201 (LSH), partial.** After a history that never inserts an id that is present: the statistics count the ids the history left, the items in the tables are one for each table and id (so the overhead is that of the other tables), the average bucket size times the number of buckets is the number of items, and the greatest bucket is one and bounds all. |
| `Lsh.C201_lsh_violated` | pcq | **C201 (LSH), violated.** Inserting an id again with the same vector leaves one vector and two items in every table: the overhead grows though nothing was added. |

### C202 — Automatic saving follows its configuration and ends with Close

Status: **partial**.
Timer goroutines as steps. Proved: nothing is saved by timers when disabled, one save at a time for a store initialised once, none begins after Close, goroutines die out (weight decreases with every step). Negated for all states: SaveOnClose and MinChanges are never read, Init twice gives two concurrent savers.
Proofs in `Thm/AutoSave.lean`.

| Theorem | Axioms | Says |
|---|---|---|
| `AutoSave.C202_off` | pq | **C202.** With automatic saving off no timer is ever set and no save is made but by `Close`, in any interleaving. |
| `AutoSave.C202_one` | pq | **C202.** A store that is initialised once never has two automatic saves running, nor one running while the next is scheduled, in any interleaving with writes and `Close`. |
| `AutoSave.C202_after_close` | pq | **C202.** After `Close` no automatic save begins: those made later are those that were running when it closed. For a store initialised once that is at most one (`C202_one`). |
| `AutoSave.C202_dies_out` | pq | **C202.** After `Close` the goroutines of automatic saving die out: everything they do makes the number of things left to do smaller, so every schedule ends with no timer set and nothing running. |
| `AutoSave.C202_save_on_close_violated` | pq | **C202, violated.** `SaveOnClose` is not looked at: closing an open store saves whatever it says, also with automatic saving off. |
| `AutoSave.C202_min_changes_violated` | pq | **C202, violated.** `MinChanges` is not looked at: however great it is, a timer that fires on an open store is followed by a save, also when nothing has changed. |
| `AutoSave.C202_two_violated` | pq | **C202, violated.** Initialising a store twice sets two timers, and two automatic saves run at once. |

### C203 — Concurrent writers leave table and index in step

Status: **partial**.
Proved: goroutines on different ids get the same rows, index and outcomes in every schedule; a record only written (never removed) is in the index at the end; a record only removed is never left in the index without its row. Violated for a write and a removal of the same id at the same time (ghost entry, lost record), for every starting state with such an id.
Proofs in `Thm/Interleave.lean`.

| Theorem | Axioms | Says |
|---|---|---|
| `Interleave.C203_apart_partial` | pcq | C203: calls of goroutines that name different ids have the same effect in every schedule: the same rows, the same entries of the index and the same outcomes of the calls, so the effect of running the goroutines one after the other. |
| `Interleave.C203_written_partial` | pq | C203: a record that some goroutines write, again and again and at the same time, and that no goroutine removes is in the index when the calls have returned, whatever the schedule, provided it was not removed before. |
| `Interleave.C203_removed_partial` | pq | C203: a record that some goroutines remove, at the same time, and that no goroutine writes is found by the index when the calls have returned only if it is still in the table, whatever the schedule. |
| `Interleave.C203_ghost_violated` | pq | C203: a write and a removal of the same new record, from two goroutines: in this order of their steps both succeed, and afterwards the table is without the record while the index holds it for good. In no order of whole calls does this happen. |
| `Interleave.C203_serial` | pq | Beside it: with the calls one after the other, in either order, the index never holds a record the table is without. |
| `Interleave.C203_lost_violated` | pq | C203: the other way round the record is in the table and no search through the index ever finds it, although its row was written after the old row was removed. |

### C204 — A batch becomes visible at once

Status: **partial**.
Proved for the table (one transaction) when other goroutines use other ids; violated for the index, which is filled one record after the other.
Proofs in `Thm/Interleave.lean`.

| Theorem | Axioms | Says |
|---|---|---|
| `Interleave.C204_linear_partial` | pcq | C204: at any moment of any schedule a search of the table sees all records of a batch that is being written or none of them, when the other goroutines use other ids. |
| `Interleave.C204_index_violated` | pq | C204: a search through the index sees a part of a batch: between two insertions the first record is found and the second is not, although the batch is in the table. |
| `Interleave.C204_sound` | p | C204: what a search through the index reports is a row of the table whose entry was not removed when the index was asked. |

### C205 — A completed call is seen by every goroutine

Status: **partial**.
Other goroutines use other ids. Violated for a record written again after its removal (the index refuses an id it ever held).
Proofs in `Thm/Interleave.lean`.

| Theorem | Axioms | Says |
|---|---|---|
| `Interleave.C205_written_partial` | pcq | C205: once a batch has returned without error, every goroutine finds each of its records, in the table and through the index, whatever the other goroutines do with other records; the records must not have been removed earlier. |
| `Interleave.C205_removed` | pcq | C205: once a removal has returned without error, no goroutine finds the record any more, in the table or through the index. |
| `Interleave.C205_again_violated` | pq | C205: a record written again after it was removed stays out of the index, whoever searches: the guard of `C205_written_partial` is needed. |

### C206 — The dimension is decided once, also by concurrent first writers

Status: **partial**.
Built on the model of AdaptVector (C14). UpsertBatch neither reads nor sets the dimension (C13) and is left out. Searches are proved for a store whose dimension is known; violated while the first record is being written.
Proofs in `Thm/DimRace.lean`.

| Theorem | Axioms | Says |
|---|---|---|
| `DimRace.C206_once` | pcq | C206: the dimension of a store is decided once: when it is known at one moment, it is the same at every later moment of every schedule. |
| `DimRace.C206_rows_partial` | pcq | C206: goroutines write vectors of any lengths into a store that has no record yet: at every moment of every schedule all stored vectors have the one dimension of the store, under every policy. No written vector may be empty. |
| `DimRace.C206_empty_violated` | pcq | C206: an empty vector written first leaves the dimension open, and the store then has two lengths, even under the strict policy. |
| `DimRace.C206_success` | pcq | C206: in every schedule a writer of an id nobody else writes that is told its record is stored finds exactly its own vector there, fitted to some dimension; one that is told otherwise, or is not done yet, has changed nothing under its id. It is told that the record is stored only if the database took it. |
| `DimRace.C206_accepted` | pcq | C206: under an adapting policy no schedule makes a write fail because of the lengths others write. |
| `DimRace.C206_search_partial` | pcq | C206: in a store whose dimension is known a search is answered in every schedule with the query it is answered with when it runs alone. |
| `DimRace.C206_search_violated` | pcq | C206: while the first record is being written, a search of another length that the policy would adapt is refused, although it is answered both when it comes before the write and when it comes after it. |

### C207 — Automatic retention shows every message

Status: **partial**.
Guard: one session, all roles count, extractions run at once (a delayed extraction can miss messages: C62_delay_violated). Violated for two sessions that take turns, for every length of the chat, and with a role filter.
Proofs in `Thm/Any6.lean`, `Thm/RetainCover.lean`.

| Theorem | Axioms | Says |
|---|---|---|
| `Hindsight.C207_any_roles_violated` | pq | C207 is violated for every window and every set of roles: a message that counts, then a window of messages of the session that do not count, then the message that fires the extraction. The first is not shown then, although both count. |
| `Hindsight.C207_covered_partial` | pcq | C207: in one session whose messages all count, with a window not shorter than the trigger and extractions that run at once, all but the last `TriggerEvery - 1` messages have been shown to the extractor, after any number of messages. |
| `Hindsight.C207_sessions_violated` | pq | C207: sessions share one counter: with the default trigger of two and two sessions that take turns, the extractor never sees a message of the first session, however long the chat goes on and however long the window is. |
| `Hindsight.C207_roles_violated` | p | C207: messages whose role does not count push the others out of the window: the window is taken over all roles. |

### C208 — Stored vectors do not change when the caller's buffers do

Status: **partial**.
Refinement to an index that is handed values, for all histories: proved for the copying kinds, and for all kinds when no buffer is filled again after it was handed over. Violated for the sharing kinds: two records inserted from one buffer both get the second vector.
Proofs in `Thm/Alias.lean`.

| Theorem | Axioms | Says |
|---|---|---|
| `Alias.C208_copies_partial` | pq | C208: the table, the flat index and a quantised graph index keep what they were handed, whatever the caller does with the buffers afterwards: after every history a search finds the vectors as they were at the time of the calls. |
| `Alias.C208_once_partial` | pq | C208: every index does so for a caller who never fills a buffer again after handing it over. |
| `Alias.C208_reuse_violated` | pq | C208: a caller who uses one buffer for two records: the graph index, the inverted file, the hash index and the index of the graph then have the second vector under both ids. |
| `Alias.C208_reuse_copies` | pq | Beside it: the same calls on the flat index and on the table. |
| `Alias.C208_cache_violated` | pq | C208: the slice an embedding cache returns is the cached one: a caller who writes into it (to normalise it, say) changes what everybody is told later. |
| `Alias.C208_cache_partial` | pq | C208: without such writes the cache returns the vector of the embedder for every text, in every history of texts. |

### C209 — Saves of one knowledge item from several goroutines leave one of them

Status: **partial**.
Proved: calls on different items, at every moment of every schedule, leave each item as the call alone (cut off somewhere, or whole once returned) would, other items untouched; saves of one item leave title and content of one request and only chunks of requests. False, for all states and requests: two first saves leave chunks of the longer text beside the shorter, two saves of a stored item leave the document of one with all the chunks of the other, a save racing a delete leaves an item without chunks. Statements that look up and then create or change a document are taken as one.
Proofs in `Thm/KnowRace.lean`, `Thm/KnowRaceAny.lean`.

| Theorem | Axioms | Says |
|---|---|---|
| `Knowledge.C209_apart_partial` | pcq | C209, proved part: calls on different items. At every moment of every schedule, each item named in a call is as the call by itself, cut off at some step, leaves it; once the call has returned, as the whole call by itself leaves it; and every other item is as it was. For all items, calls, schedules and all well formed starting states. Without "different items" it is false, see `C209_mixed_violated`. |
| `Knowledge.C209_sources_partial` | pcq | C209, proved part: any number of goroutines save the same item (valid requests, deletions cascading). Once all have returned, in every schedule, the stored document has title and content of one of the requests, whole, and every chunk stored under it is a chunk of the text of one of the requests: nothing of what was stored before is left. That document and chunks come from the same request is false, see `C209_mixed_violated`. |
| `Knowledge.C209_mixed_violated` | pcq | C209 is violated for a new item: two goroutines save a text of two chunks and one of a single chunk. Both find no such item; the long one is stored, then the short one. Both calls succeed; the document holds the short text, and the second chunk of the long text is still stored under it. The version is 1 after two saves. |
| `Knowledge.C209_crossed_violated` | pcq | C209 is violated for a stored item too: the goroutine with the short text is about to write its record when the other one replaces everything; then it writes the record. The document holds the short text, all the chunks are those of the long one, so a search over the chunks never finds the stored text. Three saves were made, the version is 2. |
| `Knowledge.C209_delete_violated` | pcq | A save and a delete of a stored item: the delete falls between the ingest of the save and its record. Both succeed; the item exists, without any chunk. |
| `Knowledge.C209_any_mixed_violated` | pcq | C209 is violated in every state: two goroutines save an item that is not stored yet, and the text of the first has more chunks than that of the second. There is a schedule in which both calls return, the document is the one of the second, with version 1, and each chunk of the first beyond the chunks of the second is still stored under it. |
| `Knowledge.C209_any_delete_violated` | pcq | C209 is violated in every state that holds the item: the delete falls between the ingest of a save and its record. Both calls return without error; the item exists, with the text of the save, and has no chunks: no search ever finds it. |
| `Knowledge.C209_any_crossed_violated` | pcq | C209 is violated in every state that holds the item, for all saves of it: one goroutine is about to write its record when the other one replaces everything; then it writes the record. Both calls return; the document is the one of the first, and the chunks are exactly those of the second. |

### C210 — Memory calls from several goroutines each happen as a whole

Status: **partial**.
Proved for every schedule: text and vector always belong together; with foreign keys no memory is outside a bucket; calls on different memories have their full effect when they report success and none when they report an error, other memories untouched. False: an update of the text is lost to an update of another field (every state), the second of two first saves into a bucket fails (every request), a save fails when the bucket is emptied at the same time, and without foreign keys leaves a memory that cannot be read.
Proofs in `Thm/MemRace.lean`.

| Theorem | Axioms | Says |
|---|---|---|
| `Memory.C210_vector` | pcq | C210: at every moment of every schedule of saves, updates and deletes, on the same or on different memories, with or without foreign keys, each stored memory has the vector of its own text (none without an embedder): semantic search never ranks a memory by a text it does not hold. |
| `Memory.C210_held_partial` | pcq | C210: with foreign keys enforced no schedule leaves a memory outside the existing buckets. |
| `Memory.C210_atomic_partial` | pcq | C210, proved part: calls on different memories, foreign keys enforced. At every moment of every schedule: a call that has returned success has done to its memory exactly what it does by itself, a call that has returned an error has done nothing to it, and memories no call names are as they were. Which calls succeed is another matter (`C210_first_violated`, `C210_emptied_violated`); for calls on the same memory it is false (`C210_lost_violated`). |
| `Memory.C210_lost_violated` | pcq | C210 is violated by two updates of one memory, in every state that holds it: one changes the text, the other only the time to live. Both read the memory, both write, both report success; the memory has the old text. |
| `Memory.C210_first_violated` | pcq | C210 is violated by the first two saves of a bucket, for all valid requests on it: both find no bucket, both create it, the second creation is refused. The save fails although nothing is wrong with it, and nothing is stored. |
| `Memory.C210_emptied_violated` | pcq | C210 is violated by a save into a bucket whose last other memory is deleted at the same time, foreign keys enforced: the save finds the bucket, the delete removes it, the save is refused. |
| `Memory.C210_orphan_violated` | pcq | Without foreign keys (see C17) the same schedule stores a memory outside every bucket: the save reports that it was not found, and the memory cannot be read. |

### C211 — The graph's vector index agrees with the stored nodes when several goroutines write

Status: **partial**.
Violated by the code (no lock spans the table and the index): two writes of one node can leave the index with the older vector, a write and a delete can leave a deleted node in the index or a stored node out of it, a write during EnableHNSWIndex can be overwritten in the index by the old vector. Proved: with calls on different nodes the index agrees and each call has its effect; without deletes no stored node is ever missing, whatever is written or enabled meanwhile.
Proofs in `Thm/GraphRace.lean`.

| Theorem | Axioms | Says |
|---|---|---|
| `GraphRace.C211_present_partial` | pcq | C211, proved part: any number of goroutines write nodes, the same or different ones, and enable the index, once or several times, in any schedule. When all have returned, every stored node is in the index (with some vector): none is missing from every search. With deletes it is false, see `C211_missing_violated`. |
| `GraphRace.C211_agree_partial` | pq | C211, proved part: writes and deletes of different nodes, index enabled before (or not at all). When all have returned, in every schedule, each written node is stored with its vector, each deleted one is gone, every other node is as it was, and the index, if there is one, holds exactly the stored vectors. Without "different nodes" it is false: `C211_stale_violated`, `C211_ghost_violated`, `C211_missing_violated`; so it is when the index is enabled meanwhile: `C211_enable_violated`. |
| `GraphRace.C211_stale_violated` | pq | C211 is violated by two writes of one node, for all starting states, nodes and vectors: the second write reaches the table last but the index first. Both succeed, the node has the second vector, every search scores it by the first. |
| `GraphRace.C211_ghost_violated` | pq | C211 is violated by a write and a delete of one node: both succeed, the node is gone, the index still offers it. |
| `GraphRace.C211_missing_violated` | pq | C211 is violated the other way round: a stored node is deleted and written again; both succeed, the node is stored, and the index does not know it: no search through the index ever finds it. |
| `GraphRace.C211_enable_violated` | pq | C211 is violated by a write while the index is being enabled: the node was read with its old vector, is written, and is then put into the index with the old vector. |

### C212 — A search ranks what was last written

Status: **proved**.
End-to-end composition of the store history (C03) with the search path (C08, C09); completeness is stated for the linear path, since what an approximate index proposes is a parameter.
Proofs in `Thm/SearchHistory.lean`.

| Theorem | Axioms | Says |
|---|---|---|
| `Thm.SearchHistory.C212_last_written` | pcq | C212: whatever calls were made before, with whatever faults, and whichever index serves the query and whatever it proposes: each result is a record that was written by a successful call, shows the vector, content, document and metadata of that call, and no later call wrote that id. Its score is the one of that vector and content. |
| `Thm.SearchHistory.C212_once` | pcq | C212: no id occurs twice among the results, whichever index serves the query and even if it proposes an id several times. |
| `Thm.SearchHistory.C212_found` | pcq | C212: a record that was written by a successful call, and neither written again nor asked to be removed by a later call, is in the answer of a plain search without an index, with the score of the vector and content of that call, unless as many results as were asked for are at least as good. |

### C213 — Searching a small store through its own graph index is exact

Status: **partial**.
Composition of C161_exact_partial, C108_small_index_exact_partial and C09_index_topK about the store model with the HNSW model as its index. Partial: beyond 2M+1 ids (C213_larger_violated), for ids written twice and for removals that bypass the index the claim is false (C108_every_live_vector_found_violated, C161_rewrite_violated).
Proofs in `Thm/StoreExact.lean`.

| Theorem | Axioms | Says |
|---|---|---|
| `Thm.StoreExact.C213_exact_partial` | pcq | C213 (partial): a store that was never given more than `2 M + 1` ids, none of them twice and none removed behind the back of the index, and that is searched through the index without collection, filter, threshold or text weight, returns exactly the `k` best of all stored records, if a vector nearer for the index is never less similar for the store. Missing: larger stores, ids written again and removals that do not reach the index, all of them violated (`C108_every_live_vector_found_violated`, `C161_rewrite_violated`). |
| `Thm.StoreExact.C213_scope_partial` | pcq | C213 (partial): when twice the number of results asked for reaches the number of ids ever written, the index proposes everything stored, so that the search returns exactly the best records of the collection that match the filter and the threshold, whatever the similarity. Missing: as above, and the filter key `doc_id`, which the index path ignores. |
| `Thm.StoreExact.C213_larger_violated` | pcq | With one record more than `2 M + 1` the search can miss the best record, here the one whose vector is the query itself, although no id was written twice and nothing was removed. |

### C214 — Searching a store through its trained inverted file with all cells probed is exact

Status: **partial**.
Proved over all histories in which every write uses a new id and every removal that reaches the index takes the last entry of its cell. Violated otherwise: fewer cells probed (C214_probe_violated), ids written again (C162_update_violated), removals from the middle of a cell (C34_delete_loses_next_violated).
Proofs in `Thm/StoreIvfExact.lean`.

| Theorem | Axioms | Says |
|---|---|---|
| `Thm.StoreIvfExact.C214_vectors_partial` | pcq | C214 (partial): after any history of writes under new ids and removals of the last entry of a cell, the trained index lists the vector of every stored record, once, and nothing else. Missing: rewritten ids (`C162_update_violated`), removals from the middle of a cell (`C34_delete_loses_next_violated`) and removals that do not reach the index. |
| `Thm.StoreIvfExact.C214_trained` | pcq | C214: training is a start for such histories: on an open store in inverted-file mode with at least as many records as cells, all of the store's dimension, training succeeds, whatever the random numbers and whatever the index before, and leaves an index that lists exactly the stored vectors. |
| `Thm.StoreIvfExact.C214_exact_partial` | pcq | C214 (partial): a store whose index holds the stored vectors, searched through the index with all cells probed and without collection, filter, threshold or text weight, returns exactly the `k` best of all stored records, if a vector nearer for the index is never less similar for the store; the index never panics. Missing: fewer cells probed (`C214_probe_violated`) and the histories excluded by `Follows`. |
| `Thm.StoreIvfExact.C214_scope_partial` | pcq | C214 (partial): when four times the number of results asked for reaches the number of stored records, the index proposes all of them, so that the search returns exactly the best records of the collection that match the filter and the threshold, whatever the similarity. Missing: as above, and the filter key `doc_id`, which the index path ignores. |
| `Thm.StoreIvfExact.C214_probe_violated` | pcq | C214 is violated when not all cells are searched: of two stored records the search for one result returns the one that is farther from the query, because the nearer one lies in the other cell. |

### C215 — A question in plain words can be used as a keyword query

Status: **partial**.
Proved for words of letters, digits and non-ASCII characters (all of them for a question, any for an OR list), for questions with one operator word (C215_operators) for any text in quotation marks (C215_quoted), for words joined by + (C215_joined), behind a column filter (C215_column) and with a star (C215_prefix). Violated: the text is handed to FTS5 as it is, so a question mark, full stop, apostrophe, hyphen, comma or colon makes every such question fail (messages: error; hybrid and text search: silently nothing), the word NOT in capitals excludes the texts that have all words (C215_not_violated), and AND, OR, NOT at the start, at the end or in a row are refused (C215_operator_refused_violated); proved for all tables and all such texts. The grammar of FTS5 is part of the model; it was compared with SQLite 3.46 on 80000 random queries.
Proofs in `Thm/Details8.lean`, `Thm/FtsQuery.lean`, `Thm/FtsWords.lean`.

| Theorem | Axioms | Says |
|---|---|---|
| `FtsQuery.C215_joined` | pcq | C215: words joined by `+` are accepted, and the texts that satisfy them are those in which the terms of all the words stand one after the other, in the order of the words. |
| `FtsQuery.C215_column` | pcq | C215: `content:` in front of a word asks for the word; `-content:` in front of it leaves no column to look in, so that no text satisfies the query (given that SQLite finds nothing where there is no column to look in). |
| `FtsQuery.C215_prefix` | pcq | C215: a star behind a word asks for what SQLite finds for the prefix, here the texts with a term that `starts` accepts; it does not ask for the word itself. |
| `FtsQuery.C215_any` | pcq | C215: keywords joined by ` OR ` are accepted, and the texts that satisfy them are those that have one of the keywords. |
| `FtsQuery.C215_all_partial` | pcq | C215: a question of plain words with white space between them is accepted, and the texts that satisfy it are those that have all its words (words without terms are not asked for, but one must have terms). Missing: questions with other characters or with operators, see the violations. |
| `FtsQuery.C215_refused_violated` | pcq | C215, violated: every such question is refused. |
| `FtsQuery.C215_messages_partial` | pcq | C215: the keyword search of messages for a question of plain words succeeds, and lists messages of the user, of other sessions than the excluded one, that have all the words, each once; one is left out only when the list is full. Missing: other questions. |
| `FtsQuery.C215_messages_violated` | pcq | C215, violated: whatever messages there are, the keyword search of messages fails for an unreadable question. |
| `FtsQuery.C215_hybrid_partial` | pcq | C215: the keyword part of a hybrid search for plain words finds records that have all the words; one is left out only when the pool is full. Missing: other questions. |
| `FtsQuery.C215_hybrid_violated` | pcq | C215, violated: whatever records there are, the keyword part of a hybrid search finds nothing for an unreadable question, and does not say so. |
| `FtsQuery.C215_operators` | pcq | C215: a question of letters and blanks with one operator in it asks for the texts that have all words before it and all words after it (`AND`), all words on one side (`OR`), or all words before and not all words after (`NOT`). |
| `FtsQuery.C215_not_violated` | pcq | C215 is violated by questions with the word `NOT`: no text that has all words of the question, not even the question itself, is found. |
| `FtsQuery.C215_operator_refused_violated` | pcq | C215 is violated by questions of plain letters that begin with an operator, end with one after words, or have two in a row after words: they are refused. |
| `FtsQuery.C215_quoted` | pcq | C215: any text without quotation marks and NUL becomes readable in quotation marks, and then asks for the texts that have its terms one after the other. |

### C216 — A memory is found by a word it contains

Status: **partial**.
Proved for all histories when the bucket has no expired memories or at most four per place in the list. Violated: a question the index cannot read (for example one that ends in a question mark) makes the search fail when nothing matches, for all histories.
Proofs in `Thm/FtsMemory.lean`.

| Theorem | Axioms | Says |
|---|---|---|
| `FtsMemory.C216_found_partial` | pcq | C216: after every history, a live memory of the bucket that has a keyword of the question (or one of the keywords given) is found: the search succeeds, and the memory is listed unless the list is full. Missing: buckets that hold more than four memories per place in the list, when some of them are expired (see `C84`). |
| `FtsMemory.C216_error_violated` | pcq | C216, violated: whatever the history, when the question cannot be read by the index (`Unreadable`, for example because it ends in a question mark) and no memory of the bucket satisfies any of the other queries, a keyword search fails instead of finding nothing. |

### C217 — A chunk is found by a word it contains

Status: **partial**.
Proved for an index without left-over entries (C133) and a positive limit (C70). Violated: a question with punctuation and only stop words finds nothing, whatever is stored, without an error.
Proofs in `Thm/FtsChunks.lean`.

| Theorem | Axioms | Says |
|---|---|---|
| `FtsChunks.C217_found_partial` | pcq | C217: a chunk that has a keyword of the question, or one of the keywords given, is among the candidates unless the list is full. Missing: an index with entries of records written before (see C133), and requests without a limit (see C70). |
| `FtsChunks.C217_silent_violated` | pcq | C217, violated: without keywords in it (only stop words, or single characters) an unreadable question finds nothing, whatever is stored, and no error is reported. |

### C218 — The retrieval mode asked for is the one used

Status: **proved**.
Proved for both searches: C218_off (the same answer for every graph), C218_on and C218_on_lexical. The names found in a question are a parameter of the model.
Proofs in `Thm/RagMode.lean`.

| Theorem | Axioms | Says |
|---|---|---|
| `RagSearch.C218_off` | pcq | C218: when the caller disables the graph or asks for the mode "lexical" in any case and with any blanks around it, or leaves the mode open and neither the question nor the caller names an entity, the answer has hits of the search only, with their texts, and no entities; the graph is not asked. |
| `RagSearch.C218_on` | pcq | C218: when the caller asks for the mode "graph" in any case and with any blanks around it, or leaves the mode open and the question names an entity, a search with vectors asks the graph: it fails if the graph cannot be read around a hit, and otherwise lists the entities around the hits and next to the chunks found. |
| `RagSearch.C218_on_lexical` | pcq | C218 for the search by words: it asks for the chunks of the entities named by the caller (or else by the question), and fails when they cannot be read; it fails when the graph cannot be read around a hit. |

### C219 — The names in a text are found

Status: **partial**.
Proved for names of ASCII capitalised words (C219_sound, C219_complete, C219_none); acronyms, names with inner capitals and names with other letters are missed (C219_missed_violated), and the first word of a capitalised question always counts as a name, so an open mode uses the graph (C219_question_word_violated). The expression is modelled with backtracking semantics and was compared with Python's re on 3000 random texts.
Proofs in `Thm/Details2.lean`, `Thm/Titles.lean`.

| Theorem | Axioms | Says |
|---|---|---|
| `Titles.C219_letters` | pcq | C219: the letters of a name are the Latin capitals, the small Latin letters and the digits, no others. |
| `Titles.C219_sound` | pq | C219: what is found in a text is, each once, a sequence of capitalised words with white space between them that stands in the text and that no letter, digit or underscore touches. |
| `Titles.C219_complete` | pcq | C219: every capitalised word of the text, and every sequence of them, is found, alone or as a part of a longer sequence: adjacent capitalised words are never torn apart. |
| `Titles.C219_none` | pcq | C219: nothing is found exactly when the text has no capitalised word that stands for itself. |
| `Titles.C219_missed_violated` | pcq | C219 fails for names that are not plain capitalised ASCII words: acronyms, names with a second capital, names with other letters. |
| `Titles.C219_question_word_violated` | pcq | C219 fails for every question that starts with a capitalised word, whatever that word means: it is taken for a name (alone or with the words after it), and an open mode uses the graph. |

### C220 — A filter checked in memory reads numbers as numbers and other texts as texts

Status: **partial**.
Exact for every filter whose IN and BETWEEN comparisons have their lists and whose LIKE patterns have no characters special to regular expressions. Violation: IN or BETWEEN without a list panics, for every store with a record that has the field.
Proofs in `Thm/FilterMemory.lean`.

| Theorem | Axioms | Says |
|---|---|---|
| `Thm.FilterMemory.C220_post_filter` | pcq | C220: a search with a post-filter returns the K best scored records of the collection among those whose metadata pass the filter, for every nesting of AND, OR and NOT and for all metadata: a comparison is by number if both sides read as numbers and by text otherwise, and a missing field passes `!=` only. |
| `Thm.FilterMemory.C220_panics_violated` | pcq | C220 is violated by a list comparison without a list: an IN filter whose value is not a list, or a BETWEEN filter whose value is not a list, panics as soon as a record of the collection has the field. |

### C221 — A call over many items does what it does over few

Status: **partial**.
Violated: each of these calls binds one parameter per item in a single statement, and SQLite accepts at most 32766. Proved for every limit: the graph deletions and batches are refused as a whole and change nothing (C221_delete); Neighbors and ShortestPath fail for a node with more neighbours or a path with as many edges, although the answer exists (C221_neighbors, C221_neighbors_violated, C221_path); a knowledge item with that many chunks can never be deleted or replaced (C221_knowledge_violated); a search through an index fails where reading the table would answer (C221_search_violated); and a hybrid search drops all keyword hits without an error (C221_hybrid_violated). Below the limit all of them are the calls of the other models.
Proofs in `Thm/SqlVars.lean`.

| Theorem | Axioms | Says |
|---|---|---|
| `Large.C221_delete` | pq | C221: deleting many nodes, many edges or running a mixed batch does what it does without a limit as long as each list of ids fits, and otherwise is an error that leaves the graph, tables and index, as it was. |
| `Large.C221_knowledge_violated` | pq | C221, violated: a knowledge item with as many chunks as a statement has parameters can no longer be deleted, nor replaced: taking it away fails, whatever the graph, and leaves all of it. With fewer chunks it succeeds. |
| `Large.C221_neighbors` | pcq | C221: the neighbours within a depth are what they are without the limit when at most `lim` nodes are within the depth, and an error when there are more, even if few of them have a wanted type. |
| `Large.C221_limited` | pcq | C221: a limit on the number of neighbours that is not above `lim` keeps the call working. |
| `Large.C221_neighbors_violated` | pcq | C221, violated: for every limit there is a history of two calls after which a node has `lim + 1` neighbours, all stored and one step away, and asking for its neighbours is an error. |
| `Large.C221_path` | pcq | C221: a path is found as without the limit when it has fewer than `lim` edges, and with `lim` edges or more it is an error although there is one. |
| `Large.C221_search_partial` | pcq | C221, partial: a search through an index answers as without the limit while the index proposes at most `lim` ids, in particular, for an index that proposes at most as many ids as it is asked for, when four times TopK is at most `lim`. Missing: larger requests, see `C221_search_violated`. |
| `Large.C221_search_violated` | pcq | C221, violated: when the index proposes more ids than a statement has parameters, the search is an error, while reading the table answers the same request. |
| `Large.C221_hybrid_partial` | pcq | C221, partial: a hybrid search with at most `lim` full-text hits and proposed ids is what it is without the limit. Missing: more hits, see `C221_hybrid_violated`. |
| `Large.C221_hybrid_violated` | pcq | C221, violated: with more full-text hits than a statement has parameters, a hybrid search succeeds and silently leaves all of them out: it answers as if the text matched nothing. Without a vector it finds nothing. |

### C222 — Streaming searches honour the options of the request

Status: **partial**.
Scope, scores and at-most-once delivery for every schedule; completeness for prompt consumers. Limit and threshold are ignored by streams, the query is not checked, a failing read ends the stream without an error; pending updates ignore collection, filter, threshold and the default limit, and a negative limit panics (violated).
Proofs in `Thm/Details4.lean`, `Thm/StreamStore.lean`.

| Theorem | Axioms | Says |
|---|---|---|
| `StreamStore.C222_updates` | pcq | C222: with a limit, a search through the incremental index returns the best of what the store found and of the updates still waiting, each update with its own fields and with the similarity of its vector to the query. |
| `StreamStore.C222_scope` | pcq | C222: whatever the consumer and the scheduler do, a stream shows only records of the contents it reads that are inside the collection and the filter of the request, each at most once, with the similarity of its vector to the query. |
| `StreamStore.C222_all_partial` | pcq | C222 (partial): to a consumer that keeps up, and without early termination, a stream whose read succeeds shows exactly the records inside the collection and the filter, whatever the batch size. Missing: slow consumers and early termination (C116), and the rest of the options, see below. |
| `StreamStore.C222_bounds_violated` | pcq | C222 is violated: the limit and the threshold of the request are ignored. To a consumer that keeps up, every record inside the collection and the filter is shown, also the ones scoring below the threshold, and their number does not depend on the limit. |
| `StreamStore.C222_query_violated` | pcq | C222 is violated: the query is not checked. A query that `Search` refuses is answered with every record inside the collection and the filter. |
| `StreamStore.C222_failed_violated` | pq | C222 is violated: when reading fails the stream is the one of an empty store: the caller gets no results and no error. |
| `StreamStore.C222_parallel` | pq | C222: streaming several queries gives one stream for each, in their order, the same as streaming that query alone; it fails exactly when the store is closed when one of the streams is started. |
| `StreamStore.C222_pending_violated` | pcq | C222 is violated: a search through the incremental index that leaves the limit to its default answers with what the store finds and every pending update it looked at, whatever their collections, metadata and scores and whatever collection, filter and threshold were asked for; so it can answer with more than ten. |
| `StreamStore.C222_panics_violated` | pcq | C222 is violated: when the store finds nothing, a negative limit, which `Search` takes for the default, makes the search through the incremental index panic as soon as there is a pending update. |

### C223 — Hybrid routers keep their two routers together

Status: **partial**.
Sparse adding and routing, and the scores of hybrid answers, proved for all histories. A refused sparse route leaves the dense one added for good, also in batches; List omits sparse-only routes; a dense match may be no hybrid match (violated).
Proofs in `Thm/Details8.lean`, `Thm/HybridRouter.lean`.

| Theorem | Axioms | Says |
|---|---|---|
| `Router.C223_weight` | pcq | C223: the weight of the answers is the one set last, whatever was added or asked before and since. |
| `Router.C223_weight_made` | pcq | C223: until a weight is set, the weight of the answers is the one the router was made with. |
| `Router.C223_sparse_add` | pq | C223: adding to a sparse router succeeds exactly when the route has a name that no other route has and at least one utterance; then the route is listed last, and otherwise nothing changes. |
| `Router.C223_unique` | pcq | C223: after any history of calls on a hybrid router, its sparse routes all have a name and an utterance, and no two share a name. |
| `Router.C223_sparse_route` | pcq | C223: the answer of a sparse router to a query: its score is the highest similarity of an utterance, or 0 when none is similar; the route it names has an utterance of that similarity; it names one exactly when the score is positive, and reports a match exactly when moreover the score reaches the threshold. The empty query matches nothing. |
| `Router.C223_route` | pcq | C223: the answer of a hybrid router: the scores of its two routers for the query, and their mean weighted by `alpha`, which decides about the match; with a weight between 0 and 1 it lies between the two. Asking changes neither the routes listed nor the sparse routes nor the weight. |
| `Router.C223_add_partial` | pq | C223 (partial): adding to a hybrid router (which has no store) a dense route that is refused changes nothing; when both routes are accepted, both are added. Missing: a sparse route that is refused, see below. |
| `Router.C223_add_violated` | pq | C223 is violated: when the sparse route is refused, the call fails but the dense route has been added; adding the same dense route again, with any sparse route, then fails too, so the pair can never be completed by this call. |
| `Router.C223_list_violated` | pq | C223 is violated: `List` of a hybrid router, which is to give the names of both routers, leaves out a route that only the sparse router has, even right after it was added. |
| `Router.C223_batch_violated` | pq | C223 is violated: a batch with a sparse route that is refused fails after the dense routes and the sparse routes before it have been added. |
| `Router.C223_alone_violated` | pcq | C223 is violated: a query that the dense router matches on its own is no match for the hybrid router when the weighted mean falls short of the threshold; the result names the route all the same. |

### C224 — Recalling by time finds the memories of that time

Status: **partial**.
Partial. Any store and index: only memories of the bank whose stored time lies in the range. Without an index and with at most 5k memories in the bank exactly those. Violated in general: five times k more similar memories of other times hide one (the range is tested after the search), times are stored in whole seconds so a range that starts within a second loses that second's memories, and without a query vector nothing is found.
Proofs in `Thm/Details3.lean`, `Thm/HindStore.lean`.

| Theorem | Axioms | Says |
|---|---|---|
| `HindStore.C224_times` | pq | C224: a hit without a recorded time is judged by the time of the call, one with a time by that time. |
| `Thm.HindStore.C224_sound` | pcq | **C224.** Recalling by time, with or without an index, shows only memories of the bank whose stored time lies in the range. |
| `Thm.HindStore.C224_complete_partial` | pcq | **C224, part.** Without an index, when the bank has no more memories than five times the number asked for, recalling by time shows exactly the memories of the bank whose stored time lies in the range. Missing: larger banks and indexes (`C224_crowded_violated`), times between two seconds (`C224_seconds_violated`), requests without a vector (`C224_no_vector_violated`). |
| `Thm.HindStore.C224_crowded_violated` | pcq | **C224, violated.** For every store without an index: a memory of the time asked for is not recalled when five times the number asked for of the bank's other memories, of whatever time, are more similar. |
| `Thm.HindStore.C224_seconds_violated` | pcq | **C224, violated.** For every store and index: a memory made within the range, but in the second in which the range begins and after that second has begun (`nanos` of it, the range starting later than the second), is not recalled: only whole seconds are stored. |
| `Thm.HindStore.C224_no_vector_violated` | pcq | **C224, violated.** Without a query vector recalling by time finds nothing at all. |

### C225 — Recalling by entity finds the memories about it

Status: **partial**.
Partial. Any store and index: each memory once, only of the bank, its stored names containing a text asked for; small banks without an index exactly those, and a memory mentions every entity it was stored with. Violated in general: k more similar memories hide one, a name inside a longer name counts (Ann finds Anna), and without a query vector nothing is found.
Proofs in `Thm/Details4.lean`, `Thm/HindStore.lean`.

| Theorem | Axioms | Says |
|---|---|---|
| `Hindsight.C225_strategy` | pq | C225, whatever search is underneath: recall by entity returns, of what the search found, exactly the memories that name an entity asked for. |
| `Thm.HindStore.C225_sound` | pcq | **C225.** Recalling by entities, with or without an index, shows each memory once, and only memories of the bank whose stored names contain one of the texts asked for. |
| `Thm.HindStore.C225_complete_partial` | pcq | **C225, part.** Without an index, when the bank has no more memories than asked for, recalling by entities finds exactly the memories of the bank whose stored names contain one of the texts. Missing: larger banks (`C225_crowded_violated`), names that only contain the text (`C225_inside_violated`), requests without a vector (`C225_no_vector_violated`). |
| `Thm.HindStore.C225_crowded_violated` | pcq | **C225, violated.** For every store without an index: a memory about the entity is not recalled when as many of the bank's memories as are asked for, about whatever, are more similar. |
| `Thm.HindStore.C225_named` | pcq | **C225.** A memory stored with the names of its entities, its user's metadata having no key "entities", mentions each of them. |
| `Thm.HindStore.C225_inside_violated` | pcq | **C225, violated.** For every store without an index and every bank that is not too large: a memory is recalled for an entity it is not about, when the text of its names contains that entity, inside a longer name. |
| `Thm.HindStore.C225_no_vector_violated` | pcq | **C225, violated.** Without a query vector recalling by entities finds nothing at all. |

### C226 — The list of observations is complete

Status: **partial**.
Partial. Any store and index: only observations of the bank; without an index and with at most a hundred, exactly those, once each. Violated in general: the hundred and first is dropped, an index that proposes other ids hides observations, and a store that does not adapt vectors refuses the one-component query.
Proofs in `Thm/HindStore.lean`.

| Theorem | Axioms | Says |
|---|---|---|
| `Thm.HindStore.C226_sound` | pcq | **C226.** The list of observations, with or without an index, shows only observations of the bank. |
| `Thm.HindStore.C226_complete_partial` | pcq | **C226, part.** Without an index, a store whose dimension the one-component query can be adapted to lists the observations of a bank with at most a hundred of them exactly, each once. Missing: more than a hundred (`C226_hundred_violated`), an index (`C226_index_violated`), a store that does not adapt vectors (`C226_refused_violated`). |
| `Thm.HindStore.C226_hundred_violated` | pcq | **C226, violated.** Of every bank with more than a hundred observations, some are not listed. |
| `Thm.HindStore.C226_index_violated` | pcq | **C226, violated.** With an index that proposes something for the zero vector, an observation it does not propose is not listed; for every store and bank. |
| `Thm.HindStore.C226_refused_violated` | pcq | **C226, violated.** On a store with a dimension other than one that does not adapt vectors (strict and warning policy), observations can be added but never listed. |

### C227 — Observations say what their memories say

Status: **partial**.
Proved as stated for the rule the code follows (detect_agrees shows the model refines the earlier one). What a user would take an observation to mean fails: 'dislikes' counts as a preference (C227_dislikes_violated), one memory naming an entity twice is enough (C227_one_memory_violated), a word repeated in one memory is a theme of all (C227_theme_of_one_violated), and the theme named depends on map order on ties (C227_tie_violated).
Proofs in `Thm/Patterns.lean`.

| Theorem | Axioms | Says |
|---|---|---|
| `Patterns.C227_entities` | pcq | An observation of a preference or of a cause is made about exactly the entities that are named at least twice and of which some memory has one of the words in its text. |
| `Patterns.C227_sources` | pcq | The sources of an observation about an entity are the memories that name it, in the order of the recall and once for each time they name it; the sources of a generalisation are all the recalled memories. The content of an observation names the entity or the theme. |
| `Patterns.C227_theme` | pcq | A generalisation is made about three memories or more exactly when some word of more than four bytes occurs twice in them; it is about such a word that no other beats, and there is at most one. |
| `Patterns.C227_dislikes_violated` | pcq | A dislike counts as a preference: "dislikes" has "likes" in it. |
| `Patterns.C227_one_memory_violated` | pcq | One memory that names an entity twice is enough for an observation about the entity, with that memory as its only source, listed twice. |
| `Patterns.C227_tie_violated` | pcq | Which of two words that occur equally often a generalisation names depends on the order in which a map is visited: each of them is named in some run. |
| `Patterns.C227_theme_of_one_violated` | pcq | A word that occurs twice in one memory and in no other is a theme of all of them: the generalisation lists memories that do not have the word. |

### C228 — A graph is a map of nodes and a map of edges

Status: **partial**.
C228_maps is a refinement to two maps for all histories; C228_answers says which calls succeed. The cascade happens only on connections that enforce foreign keys, one of the pool: on another, an edge survives its node and reappears when the id is used again (C228_resurrected_violated).
Proofs in `Thm/GraphMaps.lean`.

| Theorem | Axioms | Says |
|---|---|---|
| `Graph.C228_maps` | pcq | After any history of calls, whatever the connections enforce and whichever batches commit, the graph shows exactly the two maps of the specification: a node or an edge is what was last written under its id and not deleted since, and deletions of nodes take along the edges at them where foreign keys are enforced. |
| `Graph.C228_answers` | pcq | What the calls answer: a write of a node is accepted exactly when it has an id and a vector, a write of an edge when it has its three ids and, where foreign keys are enforced, both ends are stored; a deletion succeeds exactly when there is something under the id. A refused call leaves both maps as they were. |
| `Graph.C228_resurrected_violated` | pcq | An edge left behind by a deletion on a connection that does not enforce foreign keys is still there, and shows up at the node when a node of the same id is written again. |

### C229 — Documents are kept as written

Status: **partial**.
C229_read, C229_accepted and C229_list hold for every history. C229_integer_violated: every accepted document with an integer in its metadata reads back different. C229_newest_violated: two documents created within the same second may be listed older first. C229_closed_violated: ListDocumentsWithFilter has no test for a closed store.
Proofs in `Thm/Documents.lean`.

| Theorem | Axioms | Says |
|---|---|---|
| `Documents.C229_read` | pq | A document reads back as the last accepted write gave it, however many other calls come after and however much time passes, with the time of the creation and of the last write. |
| `Documents.C229_accepted` | pq | Which calls are accepted: a creation exactly when there is no such document, an update exactly when there is one, both only for metadata that have a JSON form; a deletion always. Refused calls change nothing, and a deleted document is not found until it is created again. |
| `Documents.C229_list` | pq | A listing shows the newest documents of the author, or of all authors when none is named: as many as asked for, each as reading it alone shows it; a negative limit means all. |
| `Documents.C229_integer_violated` | pq | A document whose metadata hold an integer does not read back as given: the value is a floating-point number, and another number where the integer has no exact one. |
| `Documents.C229_newest_violated` | pcq | Documents created within one second are listed in either order: the older one may come first. |
| `Documents.C229_closed_violated` | p | Listing the documents of a closed store fails, but not with the error that says that the store is closed, which the other calls give. |

### C230 — Updates accepted by the incremental index reach the store

Status: **partial**.
Proved under every schedule: each record of the store is the original one or exactly an accepted update, and nothing else changes; without searches, refused updates, failures and other calls, closing stores the last accepted update of every id. Violated: one update without vector or with an unknown collection or document makes up to 99 accepted updates vanish without an error; a nil update is accepted and later ends the process; a closed store accepts updates and stores none; a record deleted after the update was accepted comes back.
Proofs in `Thm/IncStore.lean`.

| Theorem | Axioms | Says |
|---|---|---|
| `IncStore.C230_stored_partial` | pcq | C230, proved part: on an open store, under every schedule of producers and flushes, as long as every update is one the store accepts, nothing fails, no search runs and no other call changes the store: nothing panics; after closing, the worker finishes, and the store has under each id the last accepted update with that id, exactly as it was handed over, and under all other ids what was there. Missing: updates the store refuses, nil updates, closed stores, other calls and searches, see below. |
| `IncStore.C230_refused` | p | C230: an update is refused exactly when the index is closed or a hundred updates wait; one that is refused changes nothing, one that is accepted does not touch the store yet. |
| `IncStore.C230_only_accepted` | pcq | C230: under every schedule of producers, searches, flushes, storage failures, nil and refused updates and closing, each record of the store is either the one that was there at the start or exactly an update accepted for its id; collections and documents stay as they are. |
| `IncStore.C230_one_bad_violated` | pcq | C230 is violated: among up to 99 accepted updates a single one without vector, or naming a collection that does not exist, or, on a connection that enforces foreign keys, a document that does not exist, makes all of them disappear: the store stays as it was, for every state of the store and wherever that update stands. |
| `IncStore.C230_closed_violated` | pcq | C230 is violated: on a closed store updates are accepted and nothing is stored. |
| `IncStore.C230_nil_violated` | pcq | C230 is violated: a nil update is accepted, and when it is flushed, after updates the store accepts, the process panics; nothing of the batch is stored. |
| `IncStore.C230_deleted_violated` | pcq | C230 is violated: calls on the index and on its store are not kept in order: a record that is deleted after its update was accepted comes back when the update is flushed. |

### C231 — Closing the memory system finishes the extractions under way

Status: **partial**.
Proved for extractions whose AddMessage had returned when Close was called (C231_waits_partial), for the count of the wait group and the open database (C231_counted) and for Close returning (C231_returns). Violated for calls that overlap with Close (C231_overlap_violated, for all states): Close waits only for extractions already registered, so a call between its write and the registration returns without error while its extraction finds the database closed and loses the facts.
Proofs in `Thm/Details3.lean`, `Thm/HindClose.lean`.

| Theorem | Axioms | Says |
|---|---|---|
| `HindClose.C231_paced` | pcq | C231: in every schedule of concurrent messages exactly one in `every` of the messages counted has started an extraction: as many as whole groups of `every` messages, and none for the rest. |
| `HindClose.C231_refused` | p | C231: a message whose call begins after the database was closed is not written and starts nothing, whatever happens later. |
| `HindClose.C231_waits_partial` | pcq | C231, proved part: an extraction started by a call of `AddMessage` that returned before `Close` was called has stored its facts when `Close` returns, whatever other messages arrive before, during and after, in every schedule. Missing: calls that overlap with `Close`, see below. |
| `HindClose.C231_counted` | pcq | C231: as long as the database is open no extraction loses its facts; the wait group counts exactly the extractions under way, so it never goes below zero. |
| `HindClose.C231_returns` | pcq | C231: `Close` does not wait for ever: when no call of `AddMessage` is under way, letting each extraction take its steps lets `Close` return. |
| `HindClose.C231_overlap_violated` | p | C231 is violated: `Close` does not wait for a call of `AddMessage` that has written its message but not yet reached the wait group, for every state in which nothing else is under way: the call returns without error after `Close`, and its extraction loses the facts. |

### C232 — Conversations and memories in one database do not disturb each other

Status: **partial**.
C232_apart_partial: for every mixed history in which no session is named memory:... and no chat message shares its id with a memory, both halves are exactly what they are alone. C232_chat_keeps needs no proviso: chat calls never change a stored memory, nor the history of a session they do not name. Violated otherwise: both interfaces write the tables sessions and messages, so for every state SaveMemory with the id of a chat message succeeds and takes the message out of its session (C232_save_violated), DeleteMemory with such an id deletes it and, when it was the last, its session (C232_delete_violated), AddMessage with the id of a memory is refused (C232_refused_violated), and the searches over the messages of a user choose from the memories too (C232_listed_violated).
Proofs in `Thm/ChatMemory.lean`, `Thm/Details2.lean`, `Thm/Details3.lean`, `Thm/Details4.lean`.

| Theorem | Axioms | Says |
|---|---|---|
| `MemRec.C232_apart_partial` | pcq | C232, proved part: any history of both interfaces in which no conversation has an id that begins with `memory:` and no message shares an id with a memory (`A` says which ids are memories). Each conversation is then what it would be without the memory calls, message by message, and each memory what it would be without the conversations. Without the provisos it is false, see `C232_save_violated`, `C232_delete_violated`. |
| `MemRec.C232_chat_keeps` | pq | C232: no call of the conversation interface changes a memory, in any state and whatever ids it uses, and no message is added to a session it does not name. |
| `MemRec.C232_save_violated` | pcq | C232 is violated by a save under the id of a message of a conversation, in every state: the save succeeds, the message is no longer in its conversation, and its text is the one of the memory. |
| `MemRec.C232_delete_violated` | pq | C232 is violated by deleting a memory under the id of a message: the message is gone from its conversation, and when it was the only one the conversation is gone as well. For every state. |
| `MemRec.C232_refused_violated` | pcq | C232 is violated by a message with the id of a memory: it is refused, in every state that holds such a row. |
| `MemRec.C232_listed_violated` | pcq | C232 is violated by the searches over the messages of a user: after any successful save into a bucket that did not exist, they choose from the memory as well, also when it has expired. |
| `MemRec.C232_once` | pcq | C232: through every history of chat and memory calls, of whatever ids, no two sessions and no two messages come to share an id. |
| `MemRec.C232_taken` | pcq | C232: creating a session that exists is refused and changes nothing, as does a message under an id that is taken. |
| `MemRec.C232_message` | pcq | C232: a chat message under a new id: where keys are enforced it is stored exactly when its session exists; where they are not, always. Stored, it is the last message and everything else stays. |
| `MemRec.C232_added` | pcq | C232: a message that was added is in its session's history with everything it was given, and with the time of the call whatever time it carried; the history is otherwise as before. |
| `MemRec.C232_candidates` | p | C232: what the searches of a user choose from: the messages of the sessions of the user, without those of the session left out. |

### C233 — The memory system and the graph of one database do not disturb each other

Status: **partial**.
C233_apart_partial: for every mixed history in which entity names and bank ids are not ids of the graph's own nodes or ends of its edges, and no caller of the graph writes a node of type bank, nodes, edges and banks (also after a restart) are what each interface alone makes them. Violated otherwise, for every state: retaining a memory about an entity replaces the node of that id by an entity node with a zero vector and no properties (C233_retain_violated), creating a bank replaces the node of its id (C233_create_violated), deleting it removes the node and its edges (C233_delete_violated), a graph node of type bank becomes a bank at the next start (C233_invented_violated), and deleting the node of a bank makes the bank vanish at the next start but not before (C233_forgotten_violated).
Proofs in `Thm/BankGraph.lean`, `Thm/Details5.lean`, `Thm/Details6.lean`.

| Theorem | Axioms | Says |
|---|---|---|
| `BankGraph.C233_apart_partial` | pcq | C233, proved part: any history of calls of the memory system and of the graph in which the ids of banks and the names of entities (`M`) are not ids of the graph's own nodes, and no caller of the graph writes a node of type `bank`. Every node of the graph outside `M` and every edge is then what it would be without the memory system, and the banks, and which of them a restart finds, are what they would be without the other calls. Without the provisos it is false, see the theorems below. |
| `BankGraph.C233_retain_violated` | pq | C233 is violated by retaining a memory about an entity that has the id of a node of the graph: in every state, whatever the node was, it now has the type `entity`, its id as content, three zeros as vector and no properties. |
| `BankGraph.C233_create_violated` | pcq | C233 is violated by creating a bank with the id of a node of the graph: the call succeeds and the node is replaced, in every state in which no bank of that id is known. |
| `BankGraph.C233_delete_violated` | pq | C233 is violated by deleting a bank: the node of its id is gone whatever it was, and on a connection with foreign keys every edge that callers of the graph put at it. |
| `BankGraph.C233_invented_violated` | pcq | C233 is violated by callers of the graph: a node of type `bank` is a bank from the next start on, under the node's id and content. |
| `BankGraph.C233_forgotten_violated` | pcq | C233 is violated by deleting the node of a bank through the graph: the bank is there until the next start, and then it is not. |
| `BankGraph.C233_entity_node` | pq | **C233.** The node that retaining a memory about an entity writes: the entity's name as id and as content, the type `entity`, three zeros, no properties; it is no bank for the next start. |
| `BankGraph.C233_bank_node` | pcq | **C233.** The node of a new bank: its id, its name as content, the type `bank`, the given properties, and a vector of the dimension of the collection (1536 when there is none) whose first coordinate is 0.0001 and whose others are 0. |
| `BankGraph.C233_bank_back` | pcq | **C233.** After a restart a bank that was created comes back under its id with its name, which is also its description now; the background and the disposition are lost. |
| `BankGraph.C233_found` | p | **C233.** A bank that is found is a bank the system knows, or it was made from the stored node of its id, which has the type `bank`; a node of another type is never shown as a bank. |
| `BankGraph.C233_gone` | pq | **C233.** A bank that was deleted is not found, neither at once nor after a restart, and every other known bank is still known. |

### C234 — Collections do not affect each other

Status: **partial**.
C234_separate_partial: over every history of calls that name other ids and other collections, a collection holds under an id exactly what it held. Violated (C234_moved_violated, every state): ids are the primary key of the whole store, so a successful Upsert under the same id into another collection takes the record out of the first. Calls that select by metadata or document, and Clear, act on all collections by design and are not in the claim.
Proofs in `Thm/StoreSeparate.lean`.

| Theorem | Axioms | Says |
|---|---|---|
| `Thm.StoreColl.C234_separate_partial` | pcq | C234, proved part: a collection holds under an id what it held, or nothing if it held nothing, through any history of calls that name other ids and other collections. Missing: the same id in two collections, see `C234_moved_violated`. |
| `Thm.StoreColl.C234_moved_violated` | pcq | C234 is violated in every state: a successful `Upsert` into another collection under an id that a collection holds takes the record out of that collection. |

### C235 — A collection holds vectors of the dimension it was created with

Status: **partial**.
Violated for every state: the declared dimension takes no part in writing at all (C235_ignored_violated: with any other declared dimensions the same calls give the same outcome and store the same), and any vector of the store's dimension, or any vector while none is fixed, is stored unchanged in a collection of any other dimension (C235_any_violated). C235_store_partial: when the store's own dimension is the declared one, Upsert stores vectors of that dimension; batches are not covered (C13).
Proofs in `Thm/StoreSeparate.lean`.

| Theorem | Axioms | Says |
|---|---|---|
| `Thm.StoreColl.C235_ignored_violated` | pcq | C235 is violated in every state: the dimensions collections were created with have no part in writing. With any other declared dimensions the same calls succeed and store the same. |
| `Thm.StoreColl.C235_any_violated` | pcq | C235 is violated in every open store: any vector of the store's dimension, or any vector at all when that is not fixed yet, is stored as it is in every collection, whatever dimension `k.dims` the collection was created with. |
| `Thm.StoreColl.C235_store_partial` | pcq | C235, proved part: in a store that adapts to its own dimension, which is the one the collection was created with, a record written by `Upsert` has a vector of that dimension. |

### C236 — Stores opened on one file agree on the records

Status: **partial**.
Reading and soundness hold for every history over any number of handles. The dimension claim is violated by handles that detect the dimension themselves: each keeps its own. It is proved for handles opened with one fixed dimension and batches of that dimension. Calls are atomic steps.
Proofs in `Thm/Handles.lean`.

| Theorem | Axioms | Says |
|---|---|---|
| `Handles.C236_read` | pcq | **C236, reading.** A record that one handle wrote is read, as it was written, by every open handle, as long as no handle writes that id again or asks for the removal of the record. |
| `Handles.C236_last_write` | pcq | **C236, soundness.** What any handle reads under an id is what some handle wrote there last. |
| `Handles.C236_dimension_violated` | pcq | **C236, violated for the dimension.** Two handles that are to find the dimension out by themselves are opened on a new file. Whatever non-empty vectors are then written first through each, and whatever the policy, the file holds both as they are. |
| `Handles.C236_dimension_partial` | pcq | **C236, the dimension (partial).** When all handles are opened with one dimension and the policy is strict, all vectors in the file have this dimension. Missing: handles that detect the dimension, and batches. |

### C237 — A record written through one store is found by searching through another

Status: **partial**.
Violated: an open handle never learns what others write, and the index of the handle that closes last replaces the saved one, so that a committed record is not found by any later opening. Proved when one handle writes and the others only read: the writer is as if alone, and a handle opened later finds every record as long as no index was saved.
Proofs in `Thm/Handles.lean`.

| Theorem | Axioms | Says |
|---|---|---|
| `Handles.Ix.C237_unseen_violated` | pq | **C237, violated.** A record with a new id that handle `i` writes is in the file and is never found through the index of another open handle `j`, whatever the other handles do afterwards. |
| `Handles.Ix.C237_lost_violated` | pq | **C237, violated after closing.** Handle `i` writes a record and is closed; handle `j`, which was open before and never saw the record, is closed after it. Its index becomes the saved one, and the next opening, by whichever handle, cannot find the record that is in the file. |
| `Handles.Ix.C237_writer_partial` | pq | **C237, one writer (partial).** While all other handles only read, the handle that writes is as if it were alone. |
| `Handles.Ix.C237_reader_partial` | pq | **C237, a later reader (partial).** While handle `i` alone writes and saves no index, a handle opened afterwards finds every record, and a graph index holds exactly the records. |

### C238 — Knowledge items and direct calls of the store and the graph do not disturb each other

Status: **partial**.
Proved: an item keeps document and chunks through every history of calls none of which names it, writes a record of it or uses an id of one of its chunks (C238_apart_partial); a successful save leaves exactly what was saved when the item had a document or no chunks (C238_save_partial). Violated: a record stored under a chunk's id takes the chunk while the document stays (C238_replaced_violated); DeleteDocument of the store leaves every graph node of the item, which can then be neither deleted nor updated, and a new save removes none of them (C238_orphans_violated).
Proofs in `Thm/KnowStore.lean`.

| Theorem | Axioms | Says |
|---|---|---|
| `Knowledge.C238_apart_partial` | pcq | C238, proved part: a knowledge item keeps its document and its chunks through every history of calls of the knowledge API, the store and the graph none of which concerns it: none names it, writes a record of it or uses an id of a chunk of it. For every state in which the chunks of the item carry its chunk ids, every fault, with and without foreign keys. |
| `Knowledge.C238_save_partial` | pcq | C238, proved part: a save that succeeds leaves exactly what was saved, whatever else the store and the graph were made to hold, provided the item had a document or no chunks. Foreign keys are enforced. |
| `Knowledge.C238_replaced_violated` | p | C238 is violated: a record written to the store under the id of a chunk of an item, for another document or none, is accepted and takes the chunk from the item, whose document stays as it was. For every state, item, chunk and text. |
| `Knowledge.C238_orphans_violated` | pcq | C238 is violated: deleting the document of an item through the store succeeds and leaves every graph node of the item. The item can then be neither deleted nor updated, whatever the request and the fault, and saving it again removes none of the nodes either. For every state and id. |

### C239 — A quantizer read from a file is the quantizer that was saved

Status: **partial**.
Proved: trained quantizers with components come back whatever the receiver held (C239_scalar_partial, C239_binary_partial); any quantizer comes back in a new one of the same kind (C239_new_partial). Violated: gob does not send zero fields, so an untrained quantizer loaded into a trained one counts as trained and codes with empty ranges (C239_untrained_violated).
Proofs in `Thm/QuantFile.lean`.

| Theorem | Axioms | Says |
|---|---|---|
| `Quant.C239_scalar_partial` | pq | C239, proved part: a scalar quantizer that was trained on vectors with components comes back as it was, whatever the quantizer it is loaded into held: it encodes and decodes as before. |
| `Quant.C239_binary_partial` | pq | C239, proved part: likewise a binary quantizer. |
| `Quant.C239_new_partial` | pq | C239, proved part: any quantizer, trained or not, comes back when it is loaded into a new one of the same kind. |
| `Quant.C239_untrained_violated` | pcq | C239 is violated: a quantizer that was saved before it was trained refuses vectors, but loaded into one that was trained it codes every vector of its dimension, with ranges without width. For every trained quantizer, dimension and number of bits. |

### C240 — The projecting binary quantizer codes vectors by their projections

Status: **partial**.
Proved: projection gives the scalar products with the rows and is linear (C240_project, C240_linear); projecting first and coding then gives the signs against the thresholds (C240_code_partial). Violated: Encode and Train do not project and refuse vectors of the input dimension (C240_encode_violated); longer vectors panic and shorter ones are padded silently (C240_length_violated); the projections are not saved (C240_saved_violated).
Proofs in `Thm/QuantFile.lean`.

| Theorem | Axioms | Says |
|---|---|---|
| `Quant.C240_project` | pcq | C240: a vector of at most the input dimension is projected to its scalar products with the rows, one for each output dimension. |
| `Quant.C240_linear` | pcq | C240: projection is linear. |
| `Quant.C240_code_partial` | pcq | C240, proved part: a caller who projects a vector first gets a code: a bit for each row, set exactly when the scalar product with the row exceeds the threshold of the row. |
| `Quant.C240_encode_violated` | pcq | C240 is violated: the quantizer does not project what it is given to code or to learn from. A vector of the input dimension is refused unless the two dimensions are equal, training on such vectors is refused, and whatever it codes it codes without its projections. |
| `Quant.C240_length_violated` | pcq | C240 is violated: a vector longer than the input dimension panics, one that is shorter is taken for the vector padded with zeros. |
| `Quant.C240_saved_violated` | pq | C240 is violated: the projections are not saved. A quantizer loaded from the file of another has the thresholds of that one and the random projections it was made with, for whatever those are. |
| `Quant.C240_trained_partial` | pcq | C240: the whole use of it. A new projecting quantizer, trained on the projections of any vectors of the input dimension, accepts them, keeps its projections, and then codes the projection of a vector by comparing each entry with the mean of that entry over the training vectors. |
| `Quant.C240_refused` | pcq | C240: training on nothing, or on vectors that are not projections, is refused and changes nothing. |

### C241 — Replacing the quantizer of an index in use keeps its records

Status: **partial**.
For every history of insertions and quantizer changes the vector the index works with is stated outright (C241_seen, C241_absent). Records inserted without a quantizer keep their vectors (C241_raw_partial); a coded record keeps its meaning exactly if the new quantizer reads its code alike (C241_same_partial). Violated: switching quantization off puts every coded record at the largest distance (C241_off_violated), and another quantizer reads old codes with its own thresholds (C241_replaced_violated).
Proofs in `Thm/BinaryIndex.lean`.

| Theorem | Axioms | Says |
|---|---|---|
| `BinaryIndex.C241_seen` | pq | C241: what the index works with for a record, after any sequence of insertions and changes of the quantizer: the vector that was inserted first under its id, if the quantizer of that time did not encode it; else what the quantizer set last makes of the code. |
| `BinaryIndex.C241_absent` | pq | C241: an id that was never inserted is not in the index. |
| `BinaryIndex.C241_raw_partial` | pq | C241 (partial): records inserted while no quantizer was set keep their vectors whatever quantizers are set later. |
| `BinaryIndex.C241_same_partial` | pq | C241 (partial): a change of the quantizer leaves a record as it is, if the new quantizer reads its code as the old one did. |
| `BinaryIndex.C241_off_violated` | pq | C241 is violated: switching quantization off puts every record that was encoded at the largest distance from every query. |
| `BinaryIndex.C241_replaced_violated` | pcq | C241 is violated: a record encoded with one binary quantizer is read with the thresholds of the next. |

### C242 — A store with binary quantization tells its records apart

Status: **partial**.
Stated outright which vector the index sees for a record: the sides of the means on which its components lie (C242_open_partial). Violated: two records are the same to the index exactly when no component lies on different sides (C242_same_violated); in a new store the sides are those of the first record alone (C242_fresh_violated).
Proofs in `Thm/BinaryIndex.lean`.

| Theorem | Axioms | Says |
|---|---|---|
| `BinaryIndex.C242_open_partial` | pcq | C242 (partial): opening a store with binary quantization, the index sees of every record on which side of the means of the first 1000 records each component is, and nothing else. |
| `BinaryIndex.C242_same_violated` | pcq | C242 is violated: in every such store two records are the same to the index exactly when no component of theirs lies on different sides of the mean. However far apart the vectors are, the index cannot tell them apart. |
| `BinaryIndex.C242_fresh_violated` | pcq | C242 is violated: in a new store with binary quantization, the index sees of whatever is written after the first record only which components exceed those of the first record, because the quantizer is trained on that record alone. |

### C243 — Opening a store with another type of quantization keeps its index usable

Status: **partial**.
Records kept uncoded are unaffected (C243_raw_partial). Violated in both directions for eight components or more and two bits or more: gob fills only the fields of the same name, the quantizer counts as trained, and every coded record is at the largest distance (C243_to_binary_violated, C243_to_scalar_violated).
Proofs in `Thm/BinaryIndex.lean`.

| Theorem | Axioms | Says |
|---|---|---|
| `BinaryIndex.C243_raw_partial` | pcq | C243 (partial): records the index kept as they are (no quantizer at the time, or not yet trained) are seen as they are, whatever type of quantization the store is opened with. |
| `BinaryIndex.C243_to_binary_violated` | pcq | C243 is violated: a store that kept scalar codes of two bits or more, opened with binary quantization, puts every coded record of eight components or more at the largest distance from every query; the quantizer counts as trained, so that it is never fitted, with all thresholds zero. |
| `BinaryIndex.C243_to_scalar_violated` | pcq | C243 is violated the other way round too: with binary codes and scalar quantization of two bits or more. |

### C244 — A call repeated after it succeeded changes nothing

Status: **partial**.
All calls of the store model, of the graph API (batches included), saving a memory, creating a session and adding a message. Violated for the trained inverted file: each repetition adds an entry.
Proofs in `Thm/Retry.lean`, `Thm/Retry2.lean`.

| Theorem | Axioms | Says |
|---|---|---|
| `Thm.Retry.C244_tables` | pcq | **C244**: repeating a call that removes or creates something, or writes a document, leaves all tables as the first call left them. |
| `Thm.Retry.C244_upsert` | pcq | **C244**: repeating a write that succeeded changes nothing a lookup shows, whatever becomes of the second write, and the second write is accepted like the first when nothing fails and foreign keys are treated alike. |
| `Thm.Retry.C244_batch` | pcq | **C244**: the same for a batch. |
| `Thm.Retry.C244_answers` | pcq | **C244**: how a repeated call is answered: what is gone is not found, what exists cannot be created again, everything else succeeds again. |
| `Graph.C244_graph` | pcq | **C244**: repeating any call of the graph API directly after it changes no node and no edge, whatever the history before; a batch may be repeated as a whole. |
| `Memory.C244_memory` | pcq | **C244**: saving a memory a second time, at whatever later moment, leaves every other memory alone and leaves this one with the same text, vector, owner, namespace and lifetime; only the expiry is counted from the second save. |
| `Chat.C244_chat` | pcq | **C244**: a session or a message sent again under the same id is refused and changes nothing. |
| `Thm.StoreIvf.C244_ivf_violated` | pcq | **C244** is violated by a trained inverted file index: every repetition of a write lists the record once more, so the index takes several of its candidates from one record. |

### C245 — Writes under different ids can be made in any order

Status: **partial**.
Proved for any permutation of single writes and deletions with different ids when the dimension is fixed; violated for the first write of a store without dimension and for an edge sent before its nodes.
Proofs in `Thm/AnyOrder.lean`.

| Theorem | Axioms | Says |
|---|---|---|
| `Thm.Retry.C245_store_partial` | pcq | **C245**: in a store with a dimension, writes and deletions of records with pairwise different ids leave the same records in whatever order they are made. |
| `Thm.Retry.C245_first_violated` | pcq | **C245** needs the dimension: in a store that has none yet, of two records with vectors of different lengths the one written first decides the length both are stored with. |
| `Graph.C245_graph` | pcq | **C245**: nodes with pairwise different ids, or edges with pairwise different ids, can be written in any order. |
| `Graph.C245_edge_first_violated` | pcq | **C245** does not reach across nodes and edges: on an enforcing connection an edge written before one of its nodes is refused and is missing for good, written after it is there. |

### C246 — The reported compression ratio is what the codes save

Status: **partial**.
Proved exactly for the product quantizer, and for scalar and binary quantizers whose codes fill whole bytes; every other scalar or binary quantizer reports more than any code saves (violated, for all of them). In an index with a trained quantizer a record takes its code and no more; a record inserted before training takes four bytes for each coordinate, also after training (violated, for all states).
Proofs in `Thm/Ratio.lean`.

| Theorem | Axioms | Says |
|---|---|---|
| `Ratio.C246_scalar_partial` | pcq | C246 for the scalar quantizer: the ratio is 32 by the bits per coordinate. It is what the code of every vector saves when the bits of a code fill whole bytes. Missing: other numbers of bits (`C246_scalar_violated`). |
| `Ratio.C246_scalar_violated` | pcq | C246 is violated by every scalar quantizer whose codes do not fill whole bytes: the ratio is more than any code saves. |
| `Ratio.C246_binary_partial` | pcq | C246 for the binary quantizer: the ratio is 32, and it is what every code saves when the dimension is a multiple of eight. Missing: other dimensions (`C246_binary_violated`). |
| `Ratio.C246_binary_violated` | pcq | C246 is violated by every binary quantizer of another dimension. |
| `Ratio.C246_product` | pcq | C246 for the product quantizer: the ratio is what the code of every vector saves. |
| `Ratio.C246_index` | pcq | C246 for an index whose quantizer is trained: each record that is inserted takes the bytes of a code and no more. |
| `Ratio.C246_untrained_violated` | pcq | C246 is violated by every record that is inserted before the quantizer is trained: it takes four bytes for each coordinate, and training the quantizer later does not change that. |

### C247 — The same search asked twice gives the same answer

Status: **partial**.
Keyword search of memories breaks ties by id and is proved to repeat itself outright. The exact index, the hashing index, merged and voting indexes, hybrid search over the graph and over the store, recall and the strongest terms repeat themselves when no two scores are equal; each may answer differently on a tie, for every tied state in the exact index, the graph and the terms, by a witness elsewhere. Recall is compared by ids and scores.
Proofs in `Thm/Repeat.lean`.

| Theorem | Axioms | Says |
|---|---|---|
| `Flat.C247_flat_partial` | pcq | C247, exact index: when no two stored vectors are at the same distance from the query, two searches give the same answer, whatever the order in which the map is visited. Missing: equal distances (below). |
| `Flat.C247_flat_violated` | pcq | C247 violated: after every history in which two vectors are equally near and none is nearer, a search for one result may return either of the two. |
| `Lsh.C247_lsh_partial` | pcq | C247, hashing index: when no two stored vectors are at the same distance from the query, two searches give the same answer, whatever the orders of the maps. Missing: equal distances. |
| `Lsh.C247_lsh_violated` | pcq | C247 violated: of two vectors that are equally near, a search for one result returns the one visited first. |
| `MultiIndex.C247_merge_partial` | pcq | C247, several indexes merged: when no two ids have the same smallest distance, two searches give the same answer. |
| `MultiIndex.C247_voting_partial` | pcq | C247, several indexes voting: when no two ids have both the same number of votes and the same score, two searches give the same answer. |
| `MultiIndex.C247_merge_violated` | pcq | C247 violated: of two vectors that are equally near, a search for one result returns the one visited first. |
| `Graph.C247_graph_partial` | pcq | C247, hybrid search over the graph: when the answer without a limit has no two results of the same combined score, two searches give the same answer whatever the limit. |
| `Graph.C247_graph_violated` | pcq | C247 violated: whenever two results share the best combined score, a search for one result may return either. |
| `Hindsight.C247_recall_partial` | pcq | C247, recall: when no two memories have the same fused score, two recalls list the same memories with the same scores in the same order, whatever the order in which strategies answer and maps are visited. |
| `Hindsight.C247_recall_violated` | pcq | C247 violated: one memory first by meaning and second by entity, the other the other way round: which one is recalled depends on the order in which a map is visited. |
| `Memory.C247_memory` | pcq | C247, keyword search of memories: equal scores are ordered by id, so two searches always give the same answer, ties included. `le` is the comparison of ids. |
| `Router.C247_terms_partial` | pcq | C247, strongest terms of a sparse vector: with pairwise different weights two calls give the same list, in whatever order the map is visited. |
| `Router.C247_terms_violated` | pcq | C247 violated: whenever two terms share the largest weight, the strongest term may be either. |
| `Thm.Search.C247_hybrid_partial` | pcq | C247, keyword and vector search fused: the vector search gives the same answer both times; when moreover no two ids have the same fused score, the fused search gives the same answer both times. |
| `Thm.Search.C247_hybrid_violated` | pcq | C247 violated: a record that is first by meaning and second by words ties with one that is second by meaning and first by words; the better of the two may be either, although the vector search itself answers the same both times. |

### C248 — Asking for more results keeps the ones already given

Status: **partial**.
Outright for the hashing index, the terms of a sparse vector, search with access control, and the four searches and histories over messages. Exact index: when no two distances from the query are equal; violated otherwise even when the map is visited in the same order, because of two equally near records one is kept by a heap of size one and the other comes first in a heap of size two. Fused search of the store violated: its vector half fetches as many records as are asked for, so a larger limit can bring a record to the top. Vector search: the scan of the table; an approximate index is not covered. Graph search: without a vector index. Diversified search: when three times the limit finds no more. Reranked search: up to ten results, for which the candidates are always fifty.
Proofs in `Thm/Prefix.lean`.

| Theorem | Axioms | Says |
|---|---|---|
| `Flat.C248_flat_partial` | pcq | C248, exact index: when no two stored vectors are at the same distance from the query. Missing: equal distances (below). |
| `Flat.C248_flat_violated` | pq | C248 violated: even when the map is visited in the same order both times, of two equally near vectors one is returned alone and the other comes first when two are asked for. |
| `Lsh.C248_lsh` | pcq | C248, hashing index: outright, the sort being the same both times. |
| `Graph.C248_graph_partial` | pcq | C248, hybrid search over the graph, when no vector index is in use. |
| `Router.C248_terms` | pcq | C248, strongest terms of a sparse vector. |
| `Chat.C248_chat` | pq | C248, messages of a session by meaning. |
| `Chat.C248_keyword` | pq | C248, messages of a user by keyword. |
| `Chat.C248_user` | pq | C248, messages of a user by meaning. |
| `Chat.C248_history` | pq | C248, history of a session: a larger limit adds older messages before the ones already given. |
| `Thm.Search.C248_linear_partial` | pcq | C248, vector search that scans the table. |
| `Thm.Search.C248_acl` | pq | C248, search with access control. |
| `Thm.Search.C248_hybrid_violated` | pcq | C248 violated: the fused search looks for as many records by meaning as are asked for, so with a larger limit a record that is second in both rankings overtakes the one that was the only answer before. |
| `Diversity.C248_diverse_partial` | pcq | C248, diversified search by marginal relevance or by distance: when the search finds no more for the larger limit (it looks for three times the limit), asking for more keeps what was given. |
| `Rerank.C248_rerank_partial` | pcq | C248, search with a reranker: up to ten results the reranker sees the same fifty candidates, so asking for more keeps what was given. |

### C249 — Widening a search never loses a result

Status: **proved**.
Exact index: radius. Store: radius, filter and collection of range search; threshold, filter and collection of the search that scans the table, with a limit at least the number of records; principals of the search with access control. Graph: depth, edge types and node types of the neighbourhood, without a limit.
Proofs in `Thm/Widen.lean`.

| Theorem | Axioms | Says |
|---|---|---|
| `Flat.C249_radius` | pcq | C249, exact index: a larger radius keeps every result with its distance. |
| `Thm.Search.C249_search` | pcq | C249, search that scans the table: with a limit that is not reached, a lower threshold, fewer filter conditions or no collection instead of one keep every result with its score. |
| `Thm.Search.C249_principals` | pq | C249, access control: more principals keep every result. |
| `Range.C249_range` | pcq | C249, range search over the store: a larger radius, fewer filter conditions or no collection instead of one keep every result. |
| `Graph.C249_depth` | pcq | C249, neighbourhood: a greater depth, all edge types instead of some or more edge types, more node types or all keep every node. |

### C250 — Narrowing a search is choosing among its results

Status: **partial**.
Outright for the search that scans the table, range search and the neighbourhood in the graph. Search with access control: for callers without principals or when every record has readers; violated by every store with a record without readers outside the collection, which every caller with a principal gets.
Proofs in `Thm/Narrow.lean`.

| Theorem | Axioms | Says |
|---|---|---|
| `Thm.Search.C250_search` | pcq | C250, search of the table: a collection, further conditions and a threshold choose among the results. |
| `Thm.Search.C250_acl_partial` | pq | C250, access control: for a caller without principals, or when every record has readers, a collection chooses among the results. Missing: records without readers when the caller has a principal (below). |
| `Thm.Search.C250_acl_violated` | pq | C250 is violated by every store that holds a record without readers outside the collection asked for: a caller with a principal gets it. |
| `Range.C250_range` | pcq | C250, range search: a smaller radius, a collection and further conditions choose among the results. |
| `Graph.C250_types` | pcq | C250, neighbourhood: naming node types chooses among the neighbours; nodes of other types are still walked through. |

### C251 — A write shows in a search only through its own record

Status: **partial**.
Outright for the exact index and the neighbourhood of a node. Search of the table and search with access control: for stores that have a dimension. Violated by every store without one, as a batch into a new store leaves it: the first single write sets the dimension, queries are then adapted to it, and all records of another length score 0.
Proofs in `Thm/Local.lean`.

| Theorem | Axioms | Says |
|---|---|---|
| `Flat.C251_flat` | pcq | C251, exact index: after one more insertion or deletion a range search gives the other vectors as before. |
| `Thm.Search.C251_search_partial` | pcq | C251, search of the table: in a store with a dimension, writing or deleting one record changes no other result. |
| `Thm.Search.C251_acl_partial` | pcq | C251, access control. |
| `Thm.Search.C251_first_violated` | pcq | C251 is violated by every store that holds records but has no dimension, as a batch into a new store leaves it: the first single write sets the dimension to that of its vector, queries are adapted to it, and records of another length all score as vectors of different lengths do. |
| `Graph.C251_neighbors` | pcq | C251, neighbourhood: writing a node changes no other node among the neighbours. |

### C252 — A limit that is not positive means a default number of results

Status: **partial**.
Holds for vector search by every index (ten), the two searches over a user's messages (ten), memories (five) and chunks by entities (ten, and one hop). Violated for every store or session by search with access control and range search (everything), session history (zero: nothing, negative: everything), search of a session (zero: nothing, negative: panic), diversified search (marginal relevance and distance: one result; random choice with a negative limit: panic), and the strongest terms (all terms; this one is documented).
Proofs in `Thm/Limits.lean`.

| Theorem | Axioms | Says |
|---|---|---|
| `Thm.Search.C252_search` | pcq | C252, vector search by any index: ten. |
| `Thm.Search.C252_acl_violated` | pq | C252 is violated by the search with access control of every open store: without a limit it gives every permitted record, however many there are. |
| `Range.C252_range_violated` | pcq | C252 is violated by range search of every open store: without a limit it gives every record within the radius. |
| `Chat.C252_user` | p | C252, messages of a user by keyword and by meaning: ten. |
| `Chat.C252_history_violated` | pcq | C252 is violated by the history of every session: limit 0 gives nothing, a negative limit everything. |
| `Chat.C252_chat_violated` | pcq | C252 is violated by the search of every session: limit 0 gives nothing, a negative limit panics, whatever is stored. |
| `Memory.C252_memory` | pcq | C252, memories: five. |
| `GraphTools.C252_entities` | pcq | C252, chunks by entities: ten, and a number of hops that is not positive means one. |
| `Router.C252_terms_violated` | pq | C252 is violated by the strongest terms of every vector: without a limit all terms are given. |
| `Diversity.C252_diverse_violated` | pcq | C252 is violated by the diversified search of every store: without a limit marginal relevance gives one result at most, and a negative limit makes the random choice panic, whatever is stored. |
| `Flat.C252_flat_violated` | pq | C252 is violated by every exact index that holds a vector: a limit that is not positive makes the search panic. |

### C253 — A database without records answers every search with nothing

Status: **partial**.
Holds for vector search by every index, fused search, search with access control, range search, reranked search, the exact index, sessions without messages (limits that are not negative) and hybrid search over a graph without nodes. Diversified search: for limits that are not negative; violated by the random choice, which panics on every empty store when the limit is negative.
Proofs in `Thm/Empty.lean`.

| Theorem | Axioms | Says |
|---|---|---|
| `Thm.Search.C253_store` | pcq | C253, vector search by any index, whatever stale ids the index proposes; fused search, whatever stale ids the keyword index proposes; search with access control. |
| `Range.C253_range` | pcq | C253, range search. |
| `Diversity.C253_diverse_partial` | pcq | C253, diversified search, for limits that are not negative. |
| `Diversity.C253_random_violated` | pcq | C253 violated: with a negative limit the random choice panics on every store without records. |
| `Diversity.C253_rerank` | pcq | C253, search with a reranker: the reranker is not asked. |
| `Flat.C253_flat` | pcq | C253, exact index: after any history that leaves nothing, for every number asked for. |
| `Chat.C253_chat` | pcq | C253, a session without messages. |
| `Graph.C253_graph` | pcq | C253, graph without nodes: hybrid search gives nothing, also around a start node that does not exist. |

### C254 — A clustered index finds a vector it holds

Status: **partial**.
Partial: a vector half way between two centroids is put into the list of the first, while a search for it may probe only the second (sort.Slice promises no order for equal distances): C254_tie_violated. Deletions of a vector that is not the last of its cluster and retraining of a filled index are excluded as in C34.
Proofs in `Thm/OwnVector.lean`.

| Theorem | Axioms | Says |
|---|---|---|
| `Ivf.C254_ivf_partial` | pcq | C254 for the IVF index, as far as it holds: after any calls that delete only last members of clusters and train only an empty index, every entry held is among the entries a search for its own vector chooses from, with its distance, when at least one cluster is probed, the centroids differ in their distance from the vector and one of them is at a representable distance. So it is returned when `k` is the size of the index, and also for every positive `k` when all other entries are farther. Missing: centroids at the same distance (violated below). |
| `Ivf.C254_tie_violated` | pcq | C254 is violated by the IVF index for a vector half way between two centroids: it is put into the list of the first, and a search for it may look only at the second. Another vector is returned instead, whatever `k`. |

### C255 — The built-in embedder gives every text its own vector of the right size

Status: **partial**.
Partial: components are between -2 and 2, not -1 and 1 as the source says (C255_range, C255_range_violated); any two texts that differ only in Aa and BB share their vector (C255_distinct_violated), and C255_distinct_partial says exactly which texts do; a negative dimension panics (C255_negative_violated).
Proofs in `Thm/MockEmbed.lean`.

| Theorem | Axioms | Says |
|---|---|---|
| `MockEmbed.C255_length` | pcq | C255: every text, the empty one too, has a vector of as many components as `Dimensions` says, for every dimension that is not negative. |
| `MockEmbed.C255_batch` | pcq | C255: a batch has one vector for every text, in order, each the one the text has by itself. |
| `MockEmbed.C255_prefix` | pcq | C255: a smaller dimension gives the beginning of the vector of a larger one. |
| `MockEmbed.C255_range` | pcq | C255: every component of every vector is between -2 and 2. |
| `MockEmbed.C255_range_violated` | pcq | C255 is violated for the range the source states, from -1 to 1: in every dimension the text "d" has a first component above 1. |
| `MockEmbed.C255_distinct_violated` | pcq | C255 is violated for telling texts apart: any two texts that differ only in having "Aa" where the other has "BB" have the same vector, in every dimension. |
| `MockEmbed.C255_distinct_partial` | pcq | C255 for telling texts apart, as far as it holds: in every dimension from two on, and in spite of the rounding, two texts have the same vector exactly when their numbers leave the same remainder. Missing: that no two texts have such numbers (violated above). |
| `MockEmbed.C255_letters` | pcq | C255: texts of one rune each have different vectors. |
| `MockEmbed.C255_negative_violated` | pcq | C255 is violated for a negative dimension: the embedder can be made, but every call panics. |

### C256 — A cosine index stores directions and measures the vectors given

Status: **partial**.
Over the reals. Partial: GetVector returns the scaled vector, not the one inserted (C256_back_violated for every vector whose length is neither zero nor one).
Proofs in `Thm/Normalize.lean`.

| Theorem | Axioms | Says |
|---|---|---|
| `Normalize.C256_unit` | pcq | C256: what is stored has the length of a unit, unless the vector has no length at all, and then it is stored as it is. |
| `Normalize.C256_scale` | pcq | C256: vectors of the same direction are stored alike. |
| `Normalize.C256_again` | pcq | C256: storing what was stored changes nothing. |
| `Normalize.C256_distance` | pcq | C256: the distance between a normalised query and a stored vector is the cosine distance between the vectors as they were given. |
| `Normalize.C256_back_violated` | pcq | C256 is violated for reading a vector back: after an insertion into a cosine index `GetVector` returns another vector than the one inserted, unless its length is one or zero. |
| `Normalize.C256_back_partial` | pcq | C256 for reading a vector back, as far as it holds: a vector of length one, or without length, comes back as it was inserted. |

### C257 — Router options take effect, the last one for each setting

Status: **partial**.
Partial: WithTopK changes no answer (C257_topk_violated, for all option lists and queries); WithSimilarityFunc(nil) is accepted and makes every query panic once a route has vectors (C257_nil_violated).
Proofs in `Thm/RouterConf.lean`.

| Theorem | Axioms | Says |
|---|---|---|
| `Router.C257_router` | pcq | C257: a router is made for every embedder that is not nil; its threshold is that of the last `WithThreshold`, its similarity function that of the last `WithSimilarityFunc` and so on, in whatever order the options are given, with 0.82, cosine, 1 and caching for what is not set. |
| `Router.C257_hybrid` | pcq | C257: the options of a hybrid router reach the router they are meant for: the dense threshold and the similarity function the dense router, the sparse threshold the sparse router, the weight and the combined threshold the hybrid router itself. |
| `Router.C257_topk_violated` | pcq | C257 is violated by the number of results to consider: a router made with `WithTopK`, whatever the number, answers every query as one made without it. |
| `Router.C257_threshold` | pcq | C257: a route is matched from the threshold of the last `WithThreshold` on. |
| `Router.C257_nil_violated` | pcq | C257 is violated by `WithSimilarityFunc(nil)`: the router is made, and any query with an embedding panics once there is a route whose utterances have embeddings. |

## What is modelled

Every definition of the model cites the lines it stands for; this table is computed from those citations. The simplifications of a file are
stated in its header and at the definitions.

| Model file | Sources |
|---|---|
| `Aggregate` | pkg/core/aggregations.go: SQLiteStore.Aggregate, SQLiteStore.aggregateCount, SQLiteStore.aggregateSum, SQLiteStore.aggregateAvg, SQLiteStore.aggregateMinMax, SQLiteStore.aggregateGroupBy, validateAggregationRequest, addMetadataFilters; pkg/core/store_init.go: SQLiteStore.createTables |
| `Alias` | pkg/core/store_crud.go: SQLiteStore.Upsert; pkg/graph/graph_hnsw.go: SimpleHNSW.Add; pkg/index/flat.go: FlatIndex.Insert; pkg/index/hnsw.go: HNSW.Insert, HNSW.Delete; pkg/index/ivf.go: IVFIndex.Train, IVFIndex.Add; pkg/index/lsh.go: LSHIndex.Insert; pkg/semantic-router/embedder.go: NewCachedEmbedder, CachedEmbedder.Embed |
| `AutoSave` | pkg/core/store_index.go: SQLiteStore.startAutoSave, SQLiteStore.autoSaveLoop, SQLiteStore.IncrementChanges; pkg/core/store_init.go: SQLiteStore.Init |
| `BankGraph` | pkg/hindsight/hindsight.go: System.Graph, System.Retain, System.CreateBank, System.GetBank, System.DeleteBank, System.loadPersistedBanks |
| `BinaryIndex` | pkg/core/store_crud.go: SQLiteStore.Upsert; pkg/core/store_index.go: SQLiteStore.initHNSWIndex, SQLiteStore.rebuildHNSWIndex, SQLiteStore.TrainQuantizer, SQLiteStore.loadIndexSnapshot; pkg/index/hnsw.go: NewHNSW, HNSW.SetQuantizer, HNSW.calculateDistance, HNSW.Insert; pkg/quantization/scalar_quantization.go: ScalarQuantizer.Load, BinaryQuantizer.Load |
| `Chat` | pkg/core/chat.go: SQLiteStore.CreateSession, SQLiteStore.GetSession, SQLiteStore.AddMessage, SQLiteStore.GetSessionHistory, SQLiteStore.SearchChatHistory, SQLiteStore.KeywordSearchMessages, SQLiteStore.SearchMessagesByUser; pkg/core/store_init.go: SQLiteStore.Init, SQLiteStore.createTables; pkg/hindsight/chat.go: System.AddMessage |
| `ChatMemory` | pkg/core/chat.go: SQLiteStore.CreateSession, SQLiteStore.AddMessage, SQLiteStore.GetSessionHistory, SQLiteStore.KeywordSearchMessages, SQLiteStore.SearchMessagesByUser; pkg/core/store_init.go: SQLiteStore.Init |
| `Codec` | internal/encoding/utils.go: EncodeVector, DecodeVector |
| `Csv` | pkg/core/io.go: SQLiteStore.dumpJSON, SQLiteStore.dumpJSONL, SQLiteStore.dumpCSV, SQLiteStore.DumpToFile |
| `DimRace` | pkg/core/dimension.go: DimensionAdapter.padWithNoise; pkg/core/store_crud.go: SQLiteStore.Upsert; pkg/core/store_search.go: SQLiteStore.Search, SQLiteStore.validateSearchInput |
| `DimStats` | pkg/core/dimension.go: AnalyzeDimensions |
| `Dimension` | pkg/core/dimension.go: DimensionAdapter.AdaptVector, DimensionAdapter.smartAdapt, DimensionAdapter.truncateVector, DimensionAdapter.truncateWithImportance, DimensionAdapter.padVector, DimensionAdapter.padWithNoise, normalizeVector; pkg/core/store_crud.go: SQLiteStore.Upsert; pkg/core/store_search.go: SQLiteStore.Search |
| `Diversity` | pkg/core/advanced_search.go: SQLiteStore.SearchWithNegatives, SQLiteStore.SearchWithDiversity, SQLiteStore.diversifyMMR, SQLiteStore.diversifyDistance, SQLiteStore.diversifyRandom, SQLiteStore.diversifyDPP, SQLiteStore.RecommendSimilar, SQLiteStore.FindAnomalies |
| `Documents` | pkg/core/document.go: SQLiteStore.CreateDocument, SQLiteStore.GetDocument, SQLiteStore.DeleteDocument, SQLiteStore.UpdateDocument, SQLiteStore.ListDocumentsWithFilter; pkg/core/store_init.go: SQLiteStore.createTables |
| `Errors` | pkg/core/chat.go: SQLiteStore.GetSession; pkg/core/collections.go: SQLiteStore.GetCollection, SQLiteStore.DeleteCollection; pkg/core/document.go: SQLiteStore.GetDocument, SQLiteStore.UpdateDocument; pkg/core/errors.go: StoreError.Error, StoreError.Unwrap, StoreError.Is, wrapError; pkg/core/multi_vector.go: SQLiteStore.GetMultiVectorEntity; pkg/core/store_crud.go: SQLiteStore.Delete, SQLiteStore.DeleteBatch; pkg/core/store_query.go: SQLiteStore.GetByID; pkg/cortexdb/memory_api.go: DB.loadMemoryRow; pkg/graph/graph.go: GraphStore.GetNode, GraphStore.DeleteNode, GraphStore.DeleteEdge |
| `Facade` | pkg/core/embedding.go: DefaultHNSWConfig, DefaultIVFConfig; pkg/cortexdb/cortexdb.go: Open, DB.Info, Quick.AddToCollection, Quick.AddTextToCollection, DB.InsertText, DB.InsertTextBatch |
| `Filter` | internal/encoding/utils.go: EncodeMetadata; pkg/core/advanced_filter.go: ParseFilterString, parseComparison, parseValue, BuildSQLFromFilter, NewMetadataFilter, MetadataFilter.Equal, MetadataFilter.NotEqual, MetadataFilter.GreaterThan, MetadataFilter.LessThan, MetadataFilter.In, MetadataFilter.GreaterThanOrEqual, MetadataFilter.LessThanOrEqual, MetadataFilter.Between, MetadataFilter.Like, MetadataFilter.NotIn, MetadataFilter.StringIn, MetadataFilter.Build, MetadataFilter.And, MetadataFilter.Or, MetadataFilter.combine, MetadataFilter.BuildSQL, evaluateFilter, compareValues, toFloat64; pkg/core/store_crud.go: SQLiteStore.DeleteByFilter |
| `FilterSearch` | pkg/core/advanced_filter.go: BuildSQLFromFilter, SQLiteStore.SearchWithAdvancedFilter, SQLiteStore.fetchCandidatesWithSQL; pkg/core/store_init.go: SQLiteStore.createTables |
| `Flat` | pkg/index/flat.go: NewFlatIndex, FlatIndex.Insert, FlatIndex.Search, FlatIndex.RangeSearch, FlatIndex.Delete, FlatIndex.Clear, FlatIndex.GetVector, FlatIndex.BatchInsert, partition, flatMaxHeap.Less |
| `Fts` | pkg/core/advanced_search.go: SQLiteStore.HybridSearch; pkg/core/chat.go: SQLiteStore.AddMessage, SQLiteStore.KeywordSearchMessages; pkg/core/collections.go: SQLiteStore.DeleteCollection; pkg/core/multi_vector.go: SQLiteStore.UpsertMultiVector, SQLiteStore.DeleteMultiVectorEntity; pkg/core/store_crud.go: SQLiteStore.Upsert, SQLiteStore.UpsertBatch, SQLiteStore.Delete, SQLiteStore.DeleteByDocID, SQLiteStore.DeleteBatch, SQLiteStore.DeleteByFilter, SQLiteStore.Clear, SQLiteStore.ClearByDocID; pkg/core/store_init.go: SQLiteStore.createTables; pkg/cortexdb/cortexdb.go: DB.ftsSearch; pkg/cortexdb/memory_api.go: DB.SaveMemory, DB.UpdateMemory, DB.DeleteMemory, DB.searchMemoryLexical |
| `FtsQuery` | pkg/core/advanced_search.go: SQLiteStore.HybridSearch; pkg/core/chat.go: SQLiteStore.KeywordSearchMessages; pkg/core/store_init.go: SQLiteStore.createTables; pkg/cortexdb/cortexdb.go: DB.SearchTextOnly, DB.ftsSearch; pkg/cortexdb/memory_api.go: DB.searchMemoryLexical |
| `FuncRouter` | pkg/semantic-router/schema.go: FunctionRouter.Add, FunctionRouter.Route, FunctionCall.Execute, RegexExtractor.Extract, RegexExtractor.extractValue, RegexExtractor.extractKeywords, RegexExtractor.coerceType, NewSchemaBuilder, SchemaBuilder.AddParameter, SchemaBuilder.AddParameterWithDefault, SchemaBuilder.AddParameterWithEnum, SchemaBuilder.SetHandler, SchemaBuilder.Build, FunctionSchema.ToJSON |
| `Geo` | pkg/geo/geospatial.go: NewGeoIndex, GeoIndex.Insert, GeoIndex.Delete, GeoIndex.SearchRadius, GeoIndex.SearchKNN, GeoIndex.SearchBoundingBox, GeoIndex.SearchPolygon, GeoIndex.Size, GeoIndex.Clear, GeoIndex.GetPoint, GeoIndex.getGridKey, GeoIndex.getCandidateCells, isValidCoordinate, isValidBoundingBox, convertToKM, convertFromKM, getBoundingBoxFromPolygon, pointInPolygon |
| `GeoDist` | pkg/geo/geospatial.go: haversineDistance |
| `Graph` | pkg/core/store_init.go: SQLiteStore.Init; pkg/graph/graph.go: GraphStore.InitGraphSchema, GraphStore.UpsertNode, GraphStore.GetNode, GraphStore.DeleteNode, GraphStore.UpsertEdge, GraphStore.GetEdges, GraphStore.DeleteEdge; pkg/graph/graph_batch.go: GraphStore.UpsertNodesBatch, GraphStore.DeleteNodesBatch, GraphStore.UpsertEdgesBatch, GraphStore.DeleteEdgesBatch, GraphStore.GetNodesBatch, GraphStore.ExecuteBatch, GraphStore.upsertNodesBatchTx, GraphStore.deleteNodesBatchTx, GraphStore.upsertEdgesBatchTx, GraphStore.deleteEdgesBatchTx; pkg/graph/graph_hnsw.go: GraphStore.EnableHNSWIndex |
| `GraphAlgo` | pkg/graph/graph_algorithms.go: GraphStore.PageRank, GraphStore.CommunityDetection, GraphStore.PredictEdges |
| `GraphExport` | pkg/graph/graph_export.go: GraphStore.ExportGraphML, GraphStore.ImportGraphML, GraphStore.ExportGEXF, GraphStore.ImportGEXF, GraphStore.ExportJSON, GraphStore.ImportJSON, DetectFormat |
| `GraphHnsw` | pkg/graph/graph_hnsw.go: NewSimpleHNSW, SimpleHNSW.Add, SimpleHNSW.searchLevel, SimpleHNSW.addConnection, SimpleHNSW.getNodeLevel, SimpleHNSW.Search, SimpleHNSW.Remove, GraphStore.HNSWSearch, GraphStore.HNSWHybridSearch |
| `GraphHybrid` | pkg/graph/graph_hybrid.go: GraphStore.HybridSearch, GraphStore.GraphVectorSearch, GraphStore.SimilarityInGraph, GraphStore.GetAllNodes, GraphStore.vectorCandidates, GraphStore.collectGraphDistances |
| `GraphRace` | pkg/graph/graph.go: GraphStore.UpsertNode, GraphStore.DeleteNode; pkg/graph/graph_hnsw.go: SimpleHNSW.Add, SimpleHNSW.Remove, GraphStore.EnableHNSWIndex |
| `GraphRead` | pkg/cortexdb/graphrag_tools.go: GraphRAGToolbox.GetNodes; pkg/graph/graph.go: GraphStore.getNodesByIDs; pkg/graph/graph_batch.go: GraphStore.GetNodesBatch, GraphStore.GetEdgesBatch; pkg/graph/graph_traversal.go: GraphStore.getEdgeByID |
| `GraphTools` | pkg/cortexdb/graphrag.go: graphEntityNodeID, firstNonEmpty; pkg/cortexdb/graphrag_tools.go: GraphRAGToolbox.UpsertEntities, GraphRAGToolbox.UpsertRelations, GraphRAGToolbox.SearchChunksByEntities, GraphRAGToolbox.ExpandGraph, lexicalVectorForText, GraphRAGToolbox.getChunkEntityNames, resolveEntityNodeID, normalizeToolToken, lexicalSearchQueries, lexicalQueryKeywords, mergeLexicalKeywords, formatFTSKeywords, isASCIIAlphaNum |
| `GraphTraverse` | pkg/graph/graph.go: GraphStore.GetEdges; pkg/graph/graph_algorithms.go: GraphStore.GetGraphStatistics; pkg/graph/graph_traversal.go: GraphStore.Neighbors, GraphStore.ShortestPath, GraphStore.Subgraph, GraphStore.Connected, GraphStore.loadNeighborNodes |
| `Handles` | pkg/core/collections.go: SQLiteStore.CreateCollection, SQLiteStore.GetCollection, SQLiteStore.ListCollections, SQLiteStore.DeleteCollection; pkg/core/document.go: SQLiteStore.CreateDocument, SQLiteStore.GetDocument, SQLiteStore.DeleteDocument; pkg/core/store.go: New, NewWithConfig; pkg/core/store_close.go: SQLiteStore.Close; pkg/core/store_crud.go: SQLiteStore.Upsert, SQLiteStore.UpsertBatch, SQLiteStore.Delete, SQLiteStore.DeleteByDocID, SQLiteStore.DeleteBatch, SQLiteStore.DeleteByFilter, SQLiteStore.Clear, SQLiteStore.ClearByDocID; pkg/core/store_index.go: SQLiteStore.TrainIndex, SQLiteStore.TrainQuantizer, SQLiteStore.saveIndexSnapshot, SQLiteStore.loadIndexSnapshot, SQLiteStore.startAutoSave, SQLiteStore.autoSaveLoop; pkg/core/store_init.go: SQLiteStore.Init, SQLiteStore.createTables |
| `HindClose` | pkg/hindsight/chat.go: System.AddMessage; pkg/hindsight/hindsight.go: System.Close |
| `HindStore` | pkg/hindsight/hindsight.go: System.semanticSearch, System.temporalSearch, System.entitySearch, System.scoredEmbeddingToMemory, System.GetObservations |
| `Hindsight` | pkg/core/chat.go: SQLiteStore.GetSession, SQLiteStore.AddMessage, SQLiteStore.GetSessionHistory; pkg/graph/graph.go: GraphStore.UpsertNode; pkg/hindsight/bank.go: Disposition.Validate; pkg/hindsight/chat.go: roleMatches; pkg/hindsight/hindsight.go: System.Retain, System.buildMetadata, System.Recall, System.semanticSearch, System.keywordSearch, System.temporalSearch, System.entitySearch, System.rrfFuse, System.Reflect, System.CreateBank, System.GetBank, System.DeleteBank, System.Observe, System.detectPatterns, System.generalizeFromMemories, System.calculateConfidence, System.loadPersistedBanks; pkg/hindsight/hooks.go: System.SetAutoRetain, System.RetainFromText |
| `Hnsw` | pkg/index/hnsw.go: NewHNSW, HNSW.Insert, HNSW.searchLayer, HNSW.selectNeighborsHeuristic, HNSW.addConnection, HNSW.Search, HNSW.Delete, HNSW.Size, distHeap.Less, HNSW.InsertBatch, HNSW.SearchVectorIndex, HNSW.InsertBatchParallel |
| `HybridRouter` | pkg/semantic-router/hybrid.go: SparseRouter.Add, SparseRouter.Route, SparseRouter.List, NewHybridRouter, HybridRouter.Add, HybridRouter.AddBatch, HybridRouter.Route, HybridRouter.List, HybridRouter.SetAlpha |
| `IncStore` | pkg/core/store_crud.go: SQLiteStore.UpsertBatch; pkg/core/streaming.go: NewIncrementalIndex, IncrementalIndex.AddAsync, IncrementalIndex.SearchWithUpdates, IncrementalIndex.Close, IncrementalIndex.processUpdates |
| `IndexFile` | pkg/core/io.go: SQLiteStore.ExportIndex, SQLiteStore.ImportIndex; pkg/index/hnsw.go: HNSW.Save, HNSW.Load; pkg/index/ivf.go: IVFIndex.Save, IVFIndex.Load |
| `IndexStats` | pkg/index/hnsw.go: HNSW.Stats; pkg/index/ivf.go: IVFIndex.Stats; pkg/index/lsh.go: LSHIndex.Stats |
| `Ingest` | pkg/cortexdb/graphrag.go: DB.InsertGraphDocument, averageVectors, graphDocumentNodeID, graphChunkNodeID; pkg/cortexdb/graphrag_tools.go: GraphRAGToolbox.IngestDocument, GraphRAGToolbox.lexicalVectorDim |
| `Interleave` | pkg/core/store_crud.go: SQLiteStore.Upsert, SQLiteStore.UpsertBatch, SQLiteStore.Delete; pkg/core/store_search.go: SQLiteStore.Search, SQLiteStore.SearchWithFilter, SQLiteStore.searchWithHNSW, SQLiteStore.searchWithIVF, SQLiteStore.searchLinear, SQLiteStore.processCandidates, SQLiteStore.fetchEmbeddingsByIDs; pkg/index/hnsw.go: HNSW.Insert, HNSW.Delete |
| `Io` | pkg/core/io.go: SQLiteStore.dumpJSON, SQLiteStore.dumpJSONL, SQLiteStore.getAllEmbeddings, SQLiteStore.Load, SQLiteStore.loadJSON, SQLiteStore.loadJSONL, SQLiteStore.processImportEmbedding; pkg/core/store_search.go: SQLiteStore.scanEmbedding |
| `Ivf` | pkg/index/ivf.go: NewIVFIndex, IVFIndex.Train, IVFIndex.Add, IVFIndex.Search, IVFIndex.SetNProbe, IVFIndex.findNearestCentroid, IVFIndex.Clear, IVFIndex.Delete, IVFIndex.Size |
| `KnowRace` | pkg/cortexdb/graphrag.go: DB.InsertGraphDocument, DB.upsertGraphRAGDocumentRecord; pkg/cortexdb/knowledge_api.go: DB.SaveKnowledge, DB.UpdateKnowledge, DB.DeleteKnowledge, DB.cleanupKnowledgeArtifacts, DB.upsertKnowledgeDocumentRecord |
| `KnowRecord` | pkg/core/document.go: SQLiteStore.CreateDocument, SQLiteStore.GetDocument, SQLiteStore.DeleteDocument, SQLiteStore.UpdateDocument; pkg/core/store_query.go: SQLiteStore.GetByDocID; pkg/cortexdb/graphrag.go: DB.InsertGraphDocument, DB.upsertGraphRAGDocumentRecord, graphEntityNodeID, buildGraphRAGContext; pkg/cortexdb/graphrag_tools.go: GraphRAGToolbox.UpsertEntities, GraphRAGToolbox.getChunkEntityNames, resolveEntityNodeID; pkg/cortexdb/knowledge_api.go: DB.SaveKnowledge, DB.UpdateKnowledge, DB.ingestKnowledgeContent, DB.cleanupKnowledgeArtifacts, DB.upsertKnowledgeDocumentRecord, DB.loadKnowledgeRecord, DB.knowledgeCollection; pkg/cortexdb/knowledge_memory_helpers.go: anyMapToStringMap, stringMapToAnyMap; pkg/graph/graph_batch.go: GraphStore.UpsertNodesBatch, GraphStore.DeleteNodesBatch, GraphStore.UpsertEdgesBatch |
| `KnowSearch` | pkg/cortexdb/graphrag.go: applyGraphRAGQueryDefaults; pkg/cortexdb/knowledge_api.go: DB.SearchKnowledge, DB.aggregateKnowledgeHits |
| `KnowStore` | pkg/core/document.go: SQLiteStore.DeleteDocument; pkg/core/store_crud.go: SQLiteStore.Upsert, SQLiteStore.Delete, SQLiteStore.DeleteByDocID; pkg/core/store_init.go: SQLiteStore.createTables; pkg/cortexdb/cortexdb.go: DB.Vector, DB.Graph; pkg/cortexdb/knowledge_api.go: DB.SaveKnowledge, DB.UpdateKnowledge, DB.GetKnowledge, DB.SearchKnowledge, DB.DeleteKnowledge; pkg/graph/graph.go: GraphStore.UpsertNode, GraphStore.DeleteNode |
| `Knowledge` | pkg/cortexdb/graphrag.go: DB.InsertGraphDocument, DB.upsertGraphRAGDocumentRecord; pkg/cortexdb/knowledge_api.go: DB.SaveKnowledge, DB.UpdateKnowledge, DB.DeleteKnowledge, DB.cleanupKnowledgeArtifacts, DB.upsertKnowledgeDocumentRecord, DB.aggregateKnowledgeHits |
| `Lexical` | pkg/core/advanced_search.go: SQLiteStore.HybridSearch; pkg/cortexdb/cortexdb.go: DB.SearchTextOnly, DB.ftsSearch; pkg/cortexdb/graphrag_tools.go: GraphRAGToolbox.searchTextCandidates |
| `Lock` | pkg/core/advanced_filter.go: SQLiteStore.SearchWithAdvancedFilter; pkg/core/advanced_search.go: SQLiteStore.SearchWithACL, SQLiteStore.HybridSearch, SQLiteStore.SearchWithNegatives, SQLiteStore.SearchWithDiversity, SQLiteStore.RecommendSimilar, SQLiteStore.FindAnomalies; pkg/core/aggregations.go: SQLiteStore.Aggregate; pkg/core/chat.go: SQLiteStore.CreateSession, SQLiteStore.GetSession, SQLiteStore.AddMessage, SQLiteStore.GetSessionHistory, SQLiteStore.SearchChatHistory, SQLiteStore.KeywordSearchMessages, SQLiteStore.SearchMessagesByUser; pkg/core/collections.go: SQLiteStore.CreateCollection, SQLiteStore.GetCollection, SQLiteStore.ListCollections, SQLiteStore.DeleteCollection, SQLiteStore.GetCollectionStats; pkg/core/document.go: SQLiteStore.CreateDocument, SQLiteStore.GetDocument, SQLiteStore.DeleteDocument, SQLiteStore.UpdateDocument, SQLiteStore.ListDocumentsWithFilter; pkg/core/faceted_search.go: SQLiteStore.SearchWithFacets, SQLiteStore.RangeSearch, SQLiteStore.BatchRangeSearch; pkg/core/io.go: SQLiteStore.Dump, SQLiteStore.dumpJSON, SQLiteStore.dumpJSONL, SQLiteStore.ExportIndex, SQLiteStore.ImportIndex, SQLiteStore.Backup; pkg/core/multi_vector.go: SQLiteStore.UpsertMultiVector, SQLiteStore.SearchMultiVector, SQLiteStore.GetMultiVectorEntity, SQLiteStore.DeleteMultiVectorEntity; pkg/core/reranker.go: SQLiteStore.SearchWithReranker; pkg/core/store.go: SQLiteStore.SetLogger, SQLiteStore.SetAutoDimAdapt, SQLiteStore.Config, SQLiteStore.Stats; pkg/core/store_close.go: SQLiteStore.Close; pkg/core/store_crud.go: SQLiteStore.Upsert, SQLiteStore.UpsertBatch, SQLiteStore.Delete, SQLiteStore.DeleteByDocID, SQLiteStore.DeleteBatch, SQLiteStore.DeleteByFilter, SQLiteStore.Clear, SQLiteStore.ClearByDocID; pkg/core/store_index.go: SQLiteStore.TrainIndex, SQLiteStore.TrainQuantizer, SQLiteStore.autoSaveLoop; pkg/core/store_init.go: SQLiteStore.Init; pkg/core/store_query.go: SQLiteStore.GetByID, SQLiteStore.GetByDocID, SQLiteStore.ListDocuments, SQLiteStore.ListDocumentsWithInfo, SQLiteStore.GetDocumentsByType; pkg/core/store_search.go: SQLiteStore.Search, SQLiteStore.SearchWithFilter; pkg/core/streaming.go: SQLiteStore.StreamSearch; pkg/hindsight/chat.go: System.AddMessage; pkg/hindsight/hindsight.go: System.Recall, System.Reflect, System.CreateBank, System.GetBank, System.ListBanks, System.DeleteBank, System.Observe; pkg/hindsight/hooks.go: System.SetFactExtractor, System.SetReranker, System.SetAutoRetain, System.RetainFromText; pkg/index/ivf.go: IVFIndex.Delete, IVFIndex.Size; pkg/index/multi_index.go: MultiIndex.AddIndex, MultiIndex.Insert, MultiIndex.Search, MultiIndex.Delete, MultiIndex.Size, MultiIndex.Stats, HybridIndex.Insert, HybridIndex.Search, HybridIndex.Delete; pkg/semantic-router/hybrid.go: SparseRouter.Add, SparseRouter.Route, HybridRouter.Add, HybridRouter.AddBatch, HybridRouter.Route, HybridRouter.List, HybridRouter.SetAlpha, HybridRouter.Stats; pkg/semantic-router/router.go: Router.Add, Router.AddBatch, Router.Remove, Router.Route, Router.List, Router.Get, Router.Stats; pkg/semantic-router/schema.go: FunctionRouter.Add, FunctionRouter.Route; pkg/semantic-router/sparse.go: BM25Encoder.Fit, BM25Encoder.EncodeSparse, BM25Encoder.Vocabulary, BM25Encoder.Dimensions, TFIDFEncoder.Fit, TFIDFEncoder.Vocabulary, TFIDFEncoder.Dimensions |
| `Logger` | pkg/core/logger.go: LogLevel.String, NewLogger, defaultLogger.Debug, defaultLogger.Info, defaultLogger.Warn, defaultLogger.Error, defaultLogger.With, defaultLogger.log |
| `Lsh` | pkg/index/lsh.go: NewLSHIndex, LSHIndex.Insert, LSHIndex.Search, LSHIndex.SearchWithMultiProbe, LSHIndex.Delete, LSHIndex.Clear, LSHIndex.computeHash, LSHIndex.getProbeHashes |
| `MemRace` | pkg/cortexdb/memory_api.go: DB.SaveMemory, DB.UpdateMemory, DB.DeleteMemory, DB.ensureMemoryBucket, DB.embedMemoryContent |
| `Memory` | pkg/cortexdb/graphrag_tools.go: lexicalSearchQueries; pkg/cortexdb/memory_api.go: DB.SaveMemory, DB.UpdateMemory, DB.SearchMemory, DB.DeleteMemory, DB.ensureMemoryBucket, DB.embedMemoryContent, DB.loadMemoryRow, DB.searchMemoryLexical, resolveMemoryBucket, normalizeMemoryNamespace, buildMemoryMetadata, memoryExpired |
| `MemoryRecord` | pkg/cortexdb/memory_api.go: DB.SaveMemory, DB.UpdateMemory, DB.SearchMemory, DB.DeleteMemory, DB.loadMemoryRow, buildMemoryMetadata |
| `MetaCompare` | pkg/core/store_search.go: SQLiteStore.filterByMetadata, SQLiteStore.compareMetadataValues |
| `MockEmbed` | pkg/semantic-router/embedder.go: NewMockEmbedder, MockEmbedder.Embed, MockEmbedder.EmbedBatch, MockEmbedder.Dimensions |
| `MultiIndex` | pkg/index/multi_index.go: MultiIndex.AddIndex, MultiIndex.Insert, MultiIndex.Search, MultiIndex.searchPrimaryOnly, MultiIndex.searchMergeAll, MultiIndex.searchWithRerank, MultiIndex.searchWithVoting, MultiIndex.Delete, MultiIndex.Size, NewHybridIndex, HybridIndex.Train, HybridIndex.Insert, HybridIndex.Search, HybridIndex.Delete, HybridIndex.Size, NewHNSWAdapter, HNSWAdapter.Search, HNSWAdapter.SetEf, NewIVFAdapter, IVFAdapter.Insert, IVFAdapter.Search |
| `MultiVector` | internal/encoding/utils.go: DecodeMetadata; pkg/core/multi_vector.go: SQLiteStore.UpsertMultiVector, SQLiteStore.SearchMultiVector, SQLiteStore.aggregateScores, SQLiteStore.GetMultiVectorEntity, SQLiteStore.DeleteMultiVectorEntity; pkg/core/store_search.go: SQLiteStore.scanEmbedding |
| `Normalize` | pkg/index/flat.go: NewFlatIndexCosine, normalize |
| `ObserveText` | pkg/hindsight/hindsight.go: System.formatReflectContext |
| `Patterns` | pkg/hindsight/hindsight.go: System.detectPatterns, System.isPreferencePattern, System.isCausalPattern, System.generalizeFromMemories, System.calculateConfidence |
| `ProductQuant` | pkg/quantization/product_quantization.go: NewProductQuantizer, ProductQuantizer.Train, ProductQuantizer.Encode, ProductQuantizer.Decode, ProductQuantizer.ComputeDistance, ProductQuantizer.computeDistanceTable, ProductQuantizer.SearchPQ, ProductQuantizer.SerializeCodebooks, ProductQuantizer.DeserializeCodebooks, kMeans |
| `Quant` | pkg/quantization/scalar_quantization.go: NewScalarQuantizer, ScalarQuantizer.Train, ScalarQuantizer.Encode, ScalarQuantizer.Decode, NewBinaryQuantizer, BinaryQuantizer.Train, BinaryQuantizer.Encode, BinaryQuantizer.Decode, BinaryQuantizer.HammingDistance, BinaryQuantizer.SearchBinary |
| `QuantFile` | pkg/quantization/scalar_quantization.go: ScalarQuantizer.Save, ScalarQuantizer.Load, BinaryQuantizer.Save, BinaryQuantizer.Load, BinaryQuantizer.Train, BinaryQuantizer.Encode, NewOptimizedBinaryQuantizer, OptimizedBinaryQuantizer.Project |
| `QuantIndex` | pkg/core/store_crud.go: SQLiteStore.Upsert, SQLiteStore.UpsertBatch; pkg/core/store_index.go: SQLiteStore.initHNSWIndex, SQLiteStore.TrainQuantizer, SQLiteStore.saveIndexSnapshot; pkg/index/hnsw.go: HNSW.calculateDistance, HNSW.Save, HNSW.Load, HNSW.Insert, HNSW.InsertBatch, HNSW.InsertBatchParallel; pkg/quantization/scalar_quantization.go: ScalarQuantizer.Save, ScalarQuantizer.Load |
| `Quick` | pkg/index/flat.go: quickSortResults, partition |
| `Rag` | pkg/cortexdb/graphrag.go: DB.InsertGraphDocument, DB.SearchGraphRAG, applyGraphRAGIngestDefaults, applyGraphRAGQueryDefaults, splitGraphRAGText, graphDocumentNodeID, graphChunkNodeID, graphEntityNodeID, buildGraphRAGContext, rerankGraphRAGChunks, packGraphRAGContext, normalizeChunkScores, maxRedundancy, overlapScore, tokenSet; pkg/cortexdb/graphrag_tools.go: GraphRAGToolbox.IngestDocument, GraphRAGToolbox.BuildContext, GraphRAGToolbox.SearchGraphRAGLexical |
| `RagSearch` | pkg/cortexdb/graphrag.go: DB.SearchGraphRAG, rerankGraphRAGChunks, normalizeRetrievalMode, shouldUseGraphRetrieval, shouldLoadChunkEntities, stringProperty; pkg/cortexdb/graphrag_tools.go: GraphRAGToolbox.SearchText, GraphRAGToolbox.GetChunks, GraphRAGToolbox.BuildContext, GraphRAGToolbox.SearchGraphRAGLexical, GraphRAGToolbox.loadToolChunks, GraphRAGToolbox.getChunkEntityNames |
| `Range` | pkg/core/faceted_search.go: SQLiteStore.SearchWithFacets, SQLiteStore.buildFilterCondition, SQLiteStore.buildNestedCondition, SQLiteStore.fetchCandidatesWithFacets, SQLiteStore.computeFacetCounts, SQLiteStore.RangeSearch, SQLiteStore.BatchRangeSearch; pkg/core/store_init.go: SQLiteStore.createTables |
| `Ratio` | pkg/quantization/product_quantization.go: ProductQuantizer.CompressionRatio; pkg/quantization/scalar_quantization.go: ScalarQuantizer.CompressionRatio, BinaryQuantizer.CompressionRatio |
| `Recover` | pkg/core/collections.go: SQLiteStore.DeleteCollection; pkg/core/document.go: SQLiteStore.DeleteDocument; pkg/core/store_close.go: SQLiteStore.Close; pkg/core/store_crud.go: SQLiteStore.Upsert, SQLiteStore.UpsertBatch, SQLiteStore.Delete, SQLiteStore.DeleteByDocID, SQLiteStore.DeleteBatch, SQLiteStore.DeleteByFilter, SQLiteStore.Clear, SQLiteStore.ClearByDocID; pkg/core/store_index.go: SQLiteStore.initHNSWIndex, SQLiteStore.rebuildHNSWIndex, SQLiteStore.initIVFIndex, SQLiteStore.TrainIndex, SQLiteStore.saveIndexSnapshot, SQLiteStore.loadIndexSnapshot, SQLiteStore.autoSaveLoop; pkg/core/store_init.go: SQLiteStore.Init; pkg/index/hnsw.go: HNSW.Insert, HNSW.Delete; pkg/index/ivf.go: IVFIndex.Add, IVFIndex.Delete, IVFIndex.Size |
| `Reflect` | pkg/cortexdb/knowledge_memory_helpers.go: compactSnippet; pkg/hindsight/hindsight.go: System.Retain, System.buildMetadata, System.scoredEmbeddingToMemory, System.Reflect, System.formatContext, System.RetainObservation, System.AddObservation, System.GetObservations |
| `Rerank` | pkg/core/advanced_search.go: SQLiteStore.diversifyMMR; pkg/core/reranker.go: SQLiteStore.SearchWithReranker, ScoreNormalizationReranker.Rerank, KeywordMatchReranker.Rerank, ReciprocalRankFusionReranker.Rerank, DiversityReranker.Rerank, CustomReranker.Rerank, HybridReranker.Rerank |
| `RouteBatch` | pkg/semantic-router/hybrid.go: NewHybridRouter, HybridRouter.Route, HybridRouter.RouteBatch; pkg/semantic-router/router.go: Router.RouteBatch; pkg/semantic-router/sparse.go: TopTerms |
| `Router` | pkg/core/store_crud.go: SQLiteStore.UpsertBatch, SQLiteStore.DeleteBatch; pkg/cortexdb/embedder.go: BaseEmbedder.EmbedBatch; pkg/semantic-router/embedder.go: NewCachedEmbedder, CachedEmbedder.Embed, CachedEmbedder.EmbedBatch; pkg/semantic-router/hybrid.go: SparseRouter.Route, HybridRouter.Route; pkg/semantic-router/router.go: Router.Add, Router.AddBatch, Router.Remove, Router.Route, Router.getRouteVectors, Router.embedVectors, Router.persistRoute, Router.loadRoutesFromStore; pkg/semantic-router/schema.go: FunctionRouter.Route, RegexExtractor.Extract |
| `RouterConf` | pkg/semantic-router/hybrid.go: DefaultSparseConfig, NewSparseRouter, WithSparseThreshold, WithSparseTopK, NewHybridRouter, DefaultHybridConfig, WithHybridAlpha, WithHybridThreshold, WithDenseThreshold, WithHybridSparseThreshold, WithHybridSimilarityFunc; pkg/semantic-router/router.go: NewRouter, NewRouterWithStore, WithThreshold, WithSimilarityFunc, WithTopK, WithCacheEmbeddings, Router.Add, Router.AddBatch, Router.Remove, Router.Route, Router.RouteBatch, Router.List, Router.Get, Router.getRouteVectors, Router.embedVectors, Router.persistRoute, Router.loadRoutesFromStore, Router.Stats; pkg/semantic-router/types.go: DefaultConfig |
| `Search` | internal/encoding/utils.go: ValidateVector; pkg/core/advanced_filter.go: SQLiteStore.fetchCandidatesWithSQL; pkg/core/advanced_search.go: SQLiteStore.SearchWithACL, SQLiteStore.HybridSearch, SQLiteStore.scoreAndSort; pkg/core/store_crud.go: SQLiteStore.Upsert, SQLiteStore.UpsertBatch; pkg/core/store_search.go: SQLiteStore.Search, SQLiteStore.SearchWithFilter, SQLiteStore.searchWithHNSW, SQLiteStore.searchWithIVF, SQLiteStore.searchLinear, SQLiteStore.processCandidates, SQLiteStore.fetchEmbeddingsByIDs, SQLiteStore.validateSearchInput, SQLiteStore.buildSearchQuery, SQLiteStore.fetchCandidates, SQLiteStore.scanEmbedding, SQLiteStore.matchesFilter, SQLiteStore.scoreCandidates, SQLiteStore.getTextWeight, SQLiteStore.sortByScore, SQLiteStore.filterByMetadata |
| `Similarity` | pkg/core/similarity.go: cosineSimilarity, dotProduct, euclideanDistance; pkg/index/hnsw.go: EuclideanDistance, CosineDistance, DotProductDistance; pkg/index/ivf.go: euclideanDistanceIVF; pkg/index/lsh.go: lshEuclideanDistance; pkg/quantization/product_quantization.go: euclideanDistance; pkg/semantic-router/sparse.go: SparseSimilarity, tokenize, NewBM25EncoderWithParams, BM25Encoder.Fit, BM25Encoder.EncodeSparse, TFIDFEncoder.Fit, TFIDFEncoder.EncodeSparse, HybridEmbedder.HybridSimilarity |
| `Sort` | pkg/core/chat.go: SQLiteStore.SearchChatHistory; pkg/core/dimension.go: DimensionAdapter.truncateWithImportance; pkg/core/multi_vector.go: SQLiteStore.SearchMultiVector; pkg/hindsight/hindsight.go: System.rrfFuse; pkg/index/hnsw.go: HNSW.selectNeighborsHeuristic |
| `SqlVars` | pkg/core/advanced_search.go: SQLiteStore.HybridSearch; pkg/core/store_search.go: SQLiteStore.Search, SQLiteStore.searchWithHNSW, SQLiteStore.searchWithIVF; pkg/cortexdb/knowledge_api.go: DB.cleanupKnowledgeArtifacts; pkg/graph/graph_batch.go: GraphStore.DeleteNodesBatch, GraphStore.DeleteEdgesBatch, GraphStore.ExecuteBatch; pkg/graph/graph_traversal.go: GraphStore.Neighbors, GraphStore.ShortestPath, GraphStore.loadNeighborNodes |
| `Store` | internal/encoding/utils.go: EncodeVector; pkg/core/collections.go: SQLiteStore.CreateCollection, SQLiteStore.GetCollection, SQLiteStore.DeleteCollection, SQLiteStore.GetCollectionStats; pkg/core/dimension.go: DimensionAdapter.AdaptVector; pkg/core/document.go: SQLiteStore.CreateDocument, SQLiteStore.DeleteDocument, SQLiteStore.UpdateDocument; pkg/core/store.go: NewWithConfig; pkg/core/store_close.go: SQLiteStore.Close; pkg/core/store_crud.go: SQLiteStore.Upsert, SQLiteStore.UpsertBatch, SQLiteStore.Delete, SQLiteStore.DeleteByDocID, SQLiteStore.DeleteBatch, SQLiteStore.DeleteByFilter, SQLiteStore.Clear, SQLiteStore.ClearByDocID; pkg/core/store_init.go: SQLiteStore.Init, SQLiteStore.createTables; pkg/core/store_query.go: SQLiteStore.GetByID, SQLiteStore.scanEmbeddingForGet |
| `Stream` | pkg/core/streaming.go: SQLiteStore.StreamSearch, MergeStreamResults, CollectTopKFromStream, NewIncrementalIndex, IncrementalIndex.AddAsync, IncrementalIndex.SearchWithUpdates, IncrementalIndex.processUpdates |
| `StreamStore` | pkg/core/streaming.go: SQLiteStore.StreamSearch, SQLiteStore.ParallelStreamSearch, IncrementalIndex.SearchWithUpdates |
| `TextSearch` | pkg/cortexdb/cortexdb.go: Quick.SearchInCollection, DB.SearchTextInCollection, DB.HybridSearchText |
| `Titles` | pkg/cortexdb/graphrag.go: r.Extract, extractTitleEntities |
| `Tools` | pkg/cortexdb/graphrag_tools.go: GraphRAGToolbox.Definitions, GraphRAGToolbox.Call, toolObjectSchema, toolStringSchema, toolIntegerSchema, toolNumberSchema, toolBooleanSchema, toolEnumSchema, toolMapSchema, toolStringArraySchema; pkg/cortexdb/knowledge_memory_tooldefs.go: knowledgeMemoryToolDefinitions, toolEntityArraySchema, toolRelationArraySchema; pkg/cortexdb/mcp.go: DB.NewMCPServer |
| `Train` | pkg/core/store_index.go: SQLiteStore.TrainIndex; pkg/index/ivf.go: IVFIndex.Train, kMeansIVF, euclideanDistanceIVF |

572 of the 722 functions outside `examples/` and `cmd/` are modelled.

## What is not modelled

Nothing under `examples/` or `cmd/` is modelled: these are programs that use the library. Test files are not read as code. The functions below
are not modelled either, so no theorem says anything about them.

| File | Functions | Why |
|---|---|---|
| internal/encoding/utils.go | ValidateEmbedding | no stated property is about these |
| pkg/core/advanced_filter.go | MetadataFilter.ToSQL, MetadataFilter.IsEmpty | no stated property is about these |
| pkg/core/aggregations.go | joinStrings | no stated property is about these |
| pkg/core/chat.go | scanMessages | no stated property is about these |
| pkg/core/dimension.go | NewDimensionAdapter, calculateVectorStddev, DimensionAdapter.logDimensionEvent | no stated property is about these |
| pkg/core/embedding.go | DefaultTextSimilarityConfig, DefaultQuantizationConfig, DefaultConfig, DefaultAutoSaveConfig | no stated property is about these |
| pkg/core/faceted_search.go | SQLiteStore.buildFacetedWhereClause | no stated property is about these |
| pkg/core/io.go | DefaultDumpOptions, DefaultLoadOptions, SQLiteStore.LoadFromFile, SQLiteStore.scanEmbeddingWithACL, currentTimeStr, ImportStats.String | no stated property is about these |
| pkg/core/logger.go | NewStdLogger, r.Debug, r.Info, r.Warn, r.Error, nopLogger.With, NopLogger | no stated property is about these |
| pkg/core/reranker.go | RerankerFunc.Rerank, DefaultRerankOptions, NewScoreNormalizationReranker, NewKeywordMatchReranker, NewReciprocalRankFusionReranker, NewDiversityReranker, NewCustomReranker, NewHybridReranker | no stated property is about these |
| pkg/core/similarity.go | GetCosineSimilarity, GetDotProduct, GetEuclideanDist | no stated property is about these |
| pkg/core/store.go | SQLiteStore.GetDB, SQLiteStore.GetSimilarityFunc | no stated property is about these |
| pkg/cortexdb/cortexdb.go | DefaultConfig, WithEmbedder, DB.Close, DB.Quick, Quick.Info, Quick.Add, Quick.Search, Quick.AddText, Quick.SearchText, Quick.SearchTextInCollection, Quick.SearchTextOnly, generateID, DB.SearchText | no stated property is about these |
| pkg/cortexdb/embedder.go | BaseEmbedder.Embed, BaseEmbedder.Dim | no stated property is about these |
| pkg/cortexdb/graphrag.go | DB.ensureGraphRAGCollection, extractEntityNames, min, max, sortedKeys | no stated property is about these |
| pkg/cortexdb/graphrag_tools.go | DB.HasEmbedder, DB.GraphRAGTools, GraphRAGToolbox.ensureLexicalCollection, isAllZero, scoredEmbeddingsToMap, scoredEmbeddingsOrder, sortIDsByScore, sortedKeysFromSet | no stated property is about these |
| pkg/cortexdb/knowledge_api.go | GraphRAGToolbox.SaveKnowledge, GraphRAGToolbox.UpdateKnowledge, GraphRAGToolbox.GetKnowledge, GraphRAGToolbox.SearchKnowledge, GraphRAGToolbox.DeleteKnowledge | no stated property is about these |
| pkg/cortexdb/knowledge_memory_helpers.go | cloneStringMap, cloneAnyMap, uniqueSortedStrings, stringFromAny, floatFromAny, intFromAny | no stated property is about these |
| pkg/cortexdb/mcp.go | DB.RunMCPStdio, addGraphRAGMCPTool | no stated property is about these |
| pkg/cortexdb/memory_api.go | DB.GetMemory, GraphRAGToolbox.SaveMemory, GraphRAGToolbox.UpdateMemory, GraphRAGToolbox.GetMemory, GraphRAGToolbox.SearchMemory, GraphRAGToolbox.DeleteMemory, applyMemoryMetadata, memoryRecordFromMessage | no stated property is about these |
| pkg/graph/graph.go | NewGraphStore | no stated property is about these |
| pkg/graph/graph_export.go | GraphStore.Export, GraphStore.Import | no stated property is about these |
| pkg/graph/graph_hnsw.go | SimpleHNSW.randomLevel | no stated property is about these |
| pkg/graph/graph_traversal.go | contains | no stated property is about these |
| pkg/hindsight/bank.go | DefaultDisposition, NewBank, NewBankWithDisposition | no stated property is about these |
| pkg/hindsight/chat.go | System.CreateSession, reverseMessages | no stated property is about these |
| pkg/hindsight/hindsight.go | DefaultConfig, New, System.DB, System.Store, System.getCollection, memoryIDs, System.nodeToBank | no stated property is about these |
| pkg/hindsight/hooks.go | ExtractResult.Err, defaultAutoRetainConfig | no stated property is about these |
| pkg/hindsight/types.go | DefaultStrategy | no stated property is about these |
| pkg/index/flat.go | FlatIndex.Size, FlatIndex.Stats, flatMaxHeap.Len, flatMaxHeap.Swap, flatMaxHeap.Push, flatMaxHeap.Pop | no stated property is about these |
| pkg/index/hnsw.go | HNSW.selectLevel, HNSW.searchLayerClosest, distHeap.Len, distHeap.Swap, distHeap.Push, distHeap.Pop | no stated property is about these |
| pkg/index/ivf.go | min | no stated property is about these |
| pkg/index/lsh.go | LSHIndex.Size, LSHIndex.SetDistanceFunc | no stated property is about these |
| pkg/index/multi_index.go | NewMultiIndex, HybridIndex.SetAlpha | no stated property is about these |
| pkg/quantization/scalar_quantization.go | randNormal | no stated property is about these |
| pkg/semantic-router/embedder.go | CachedEmbedder.Dimensions, CachedEmbedder.ClearCache, CachedEmbedder.CacheSize | no stated property is about these |
| pkg/semantic-router/hybrid.go | SparseRouter.getRouteVectors, HybridRouter.GetAlpha | no stated property is about these |
| pkg/semantic-router/schema.go | NewFunctionRouter, NewRegexExtractor, RegexExtractor.RegisterPattern, ParseFunctionSchema, CreateRouteWithFunction | no stated property is about these |
| pkg/semantic-router/sparse.go | NewBM25Encoder, BM25Encoder.EncodeSparseBatch, NewTFIDFEncoder, NewTFIDFEncoderWithSublinearTF, TFIDFEncoder.EncodeSparseBatch, NewHybridEmbedder, NewHybridEmbedderWithAlpha, HybridEmbedder.Embed, HybridEmbedder.EmbedBatch, HybridEmbedder.Dimensions, HybridEmbedder.EncodeSparse, HybridEmbedder.EncodeSparseBatch, HybridEmbedder.SetAlpha, HybridEmbedder.GetAlpha | no stated property is about these |

Also outside the model, everywhere: float rounding, NaN and infinities (except in the codec, which works on bit patterns, and where a
theorem says otherwise); context cancellation; the text of log and error messages; memory and disk limits; the Go scheduler except in
the machines of `Lock`, `Stream`, `Recover` and `MultiIndex`; SQLite's own implementation.
