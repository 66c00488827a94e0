{
"C27": [
"",
"Refinement of a plain map by induction over histories; outcomes and filter included."
],
"C28": [
"",
"Documented clause proved for the LMDB store, refuted with a witness for the in-memory store (which empties the collection) and the DuckDB store (which panics); what those do instead is proved for all histories."
],
"C29": [
"",
"Proved for the in-memory and DuckDB stores; the LMDB store panics (proved for all histories), so the clause is refuted there."
],
"C30": [
"",
"Proved for DuckDB; in-memory and LMDB stores panic (proved for all histories), so the clause is refuted there."
],
"C31": [
"",
"Proved for in-memory and DuckDB; for LMDB the exact condition for Ok versus panic is proved and the clause refuted."
],
"C46": [
"",
"Proved for successful commits and legal names; refuted in general (failed commit, illegal name acknowledged)."
],
"C09": [
"",
"Always-an-error is refuted with witnesses; the exact outcome of every token sequence is proved."
],
"C10": [
"",
"Values with a quote inside a quote are excluded: the grammar has no such form."
],
"C36": [
"",
"For the in-memory store; filter is unimplemented (panics, C59) on the LMDB and DuckDB stores."
],
"C37": [
"",
"Both stores' behaviour is proved exactly; see the property text for where the documentation is not met."
],
"C54": [
"",
"Counting is stated for runs that reach the end; a panicking script ends the runner."
],
"C66": [
"",
"logos' longest-match behaviour is trusted as for C02."
]
}