{
 "_first": [
  {
   "id": "heed15-round1",
   "definition": "Heed.legalKey",
   "edit": "boundary 512 instead of 511",
   "claim_broken": "C46: names longer than 511 bytes are refused",
   "first_failing_proofs": [],
   "theorems_failed": [],
   "examples_failed": 0,
   "theorems_tightened": [
    "C39",
    "C46",
    "C58",
    "C59: the key limit is now the literal specification lmdbKey (Spec/Heed.lean) instead of the model's own legalKey"
   ],
   "note": "real miss in round 1: the statements used the model's own legalKey; re-run below (heed15)"
  },
  {
   "id": "eval3-round1",
   "definition": "Eval.read",
   "edit": "a missing collection reads as empty",
   "claim_broken": "C17",
   "first_failing_proofs": [],
   "theorems_failed": [],
   "examples_failed": 0,
   "theorems_tightened": [
    "C59_read_missing",
    "C64"
   ],
   "note": "real miss in round 1: no theorem said that reading a missing collection fails; C59_read_missing and C64 were added; re-run below (eval3)"
  },
  {
   "id": "msg17-round1",
   "definition": "Mem.triples",
   "edit": "another message for a missing collection",
   "claim_broken": "C27: reading a missing collection fails with its message",
   "first_failing_proofs": [],
   "theorems_failed": [],
   "examples_failed": 0,
   "theorems_tightened": [
    "C27_mem_missing_is_error: now states the exact messages"
   ],
   "note": "real miss in round 1: the theorem only said that the result is an error; re-run below (msg17)"
  }
 ],
 "mem14": {
  "note": "C27_mem_outcomes fails directly; C30 was not reached because the harness could not patch that statement to go on"
 },
 "lig14": {
  "note": "equivalent: at every position at most one rule of this lexer matches (proved), so the choice between rules never matters"
 },
 "lig15": {
  "note": "equivalent: at every position at most one rule of this lexer matches (proved), so the choice between rules never matters"
 },
 "auto41": {
  "note": "equivalent: at every position at most one rule of this lexer matches (proved), so the choice between rules never matters"
 },
 "auto68": {
  "note": "equivalent: at every position at most one rule of this lexer matches (proved), so the choice between rules never matters"
 },
 "auto109": {
  "note": "equivalent: at every position at most one rule of this lexer matches (proved), so the choice between rules never matters"
 },
 "auto174": {
  "note": "equivalent: at every position at most one rule of this lexer matches (proved), so the choice between rules never matters"
 },
 "auto184": {
  "note": "equivalent: at every position at most one rule of this lexer matches (proved), so the choice between rules never matters"
 },
 "auto44": {
  "note": "equivalent: the rule still wins or loses the same ties"
 },
 "auto4": {
  "note": "equivalent: the order of the three kinds of entry is unchanged"
 },
 "auto126": {
  "note": "equivalent: no table of that transaction was changed before"
 },
 "auto147": {
  "note": "equivalent: no table of that transaction was changed before"
 },
 "fe4": {
  "note": "equivalent: the branch cannot be reached"
 },
 "auto46": {
  "tightened": [
   "C25_standard_docs"
  ],
  "note": "real miss of the version tested; tightened"
 },
 "auto85": {
  "tightened": [
   "C25_standard_docs"
  ],
  "note": "real miss of the version tested; tightened"
 },
 "auto54": {
  "tightened": [
   "C76_shown"
  ],
  "note": "real miss of the version tested: what the screen shows of a value was not stated; C76 was added"
 },
 "auto92": {
  "tightened": [
   "C76_shown"
  ],
  "note": "real miss of the version tested: what the screen shows of a value was not stated; C76 was added"
 },
 "auto99": {
  "tightened": [
   "C71_reads_exactly"
  ],
  "note": "real miss of the version tested: the reader of JSON was only tested by round trips; C71_reads_exactly states the language it accepts"
 },
 "auto105": {
  "tightened": [
   "C71_reads_exactly"
  ],
  "note": "real miss of the version tested: the reader of JSON was only tested by round trips; C71_reads_exactly states the language it accepts"
 },
 "auto158": {
  "tightened": [
   "C71_reads_exactly"
  ],
  "note": "real miss of the version tested: the reader of JSON was only tested by round trips; C71_reads_exactly states the language it accepts"
 },
 "auto194": {
  "tightened": [
   "C71_reads_exactly"
  ],
  "note": "real miss of the version tested: the reader of JSON was only tested by round trips; C71_reads_exactly states the language it accepts"
 },
 "b2": {
  "tightened": [
   "C09_message",
   "C76_error_text"
  ],
  "note": "real miss of the version tested: the Debug text in messages was not specified on its own"
 },
 "b19": {
  "tightened": [
   "C09_message",
   "C76_error_text"
  ],
  "note": "real miss of the version tested: the Debug text in messages was not specified on its own"
 },
 "b24": {
  "tightened": [
   "C09_message",
   "C76_error_text"
  ],
  "note": "real miss of the version tested: the Debug text in messages was not specified on its own"
 },
 "b55": {
  "tightened": [
   "C09_message",
   "C76_error_text"
  ],
  "note": "real miss of the version tested: the Debug text in messages was not specified on its own"
 },
 "b56": {
  "tightened": [
   "C09_message",
   "C76_error_text"
  ],
  "note": "real miss of the version tested: the Debug text in messages was not specified on its own"
 },
 "b70": {
  "tightened": [
   "C09_message",
   "C76_error_text"
  ],
  "note": "real miss of the version tested: the Debug text in messages was not specified on its own"
 },
 "b88": {
  "tightened": [
   "C09_message",
   "C76_error_text"
  ],
  "note": "real miss of the version tested: the Debug text in messages was not specified on its own"
 },
 "b91": {
  "tightened": [
   "C09_message",
   "C76_error_text"
  ],
  "note": "real miss of the version tested: the Debug text in messages was not specified on its own"
 },
 "b36": {
  "tightened": [
   "C51_prints"
  ],
  "note": "real miss of the version tested; tightened"
 },
 "b86": {
  "tightened": [
   "C51_prints"
  ],
  "note": "real miss of the version tested; tightened"
 },
 "auto190": {
  "tightened": [
   "C53_history"
  ],
  "note": "only an example failed: C53 said nothing of a pad that starts dead; C53_history was added"
 },
 "eval13": {
  "tightened": [
   "C13_command_outcome",
   "C14_last_command"
  ],
  "note": "real miss of the version tested; tightened"
 },
 "eval14": {
  "tightened": [
   "C13_command_outcome",
   "C14_last_command"
  ],
  "note": "real miss of the version tested; tightened"
 },
 "eval22": {
  "tightened": [
   "C13_script",
   "C14_script"
  ],
  "note": "real miss of the version tested; tightened"
 },
 "eval3": {
  "note": "caught by C59 and C64, which state it for reads, not by C17"
 },
 "eval23": {
  "note": "caught by C15_standard_names"
 },
 "eval25": {
  "note": "caught by C64"
 },
 "d37": {
  "tightened": [
   "C71_written"
  ],
  "note": "only an example failed; the texts of tokens were not stated: C71_written added"
 },
 "d166": {
  "tightened": [
   "C71_written"
  ],
  "note": "only an example failed; as d37"
 },
 "d263": {
  "tightened": [
   "C71_written"
  ],
  "note": "survived; as d37"
 },
 "d109": {
  "note": "equivalent: the three kinds are still fed to the hasher as different numbers, which is all that is claimed (the number of a variant is not specified by Rust)"
 },
 "d114": {
  "tightened": [
   "C68_answer"
  ],
  "note": "survived: which answer is given when room is short was not stated; C68_answer added"
 },
 "d400": {
  "tightened": [
   "C71_written"
  ],
  "note": "survived; as d37"
 },
 "d742": {
  "tightened": [
   "C71_written"
  ],
  "note": "survived; as d37"
 },
 "d971": {
  "tightened": [
   "C71_written"
  ],
  "note": "survived; as d37"
 },
 "d1039": {
  "tightened": [
   "C71_written"
  ],
  "note": "survived; as d37"
 },
 "d951": {
  "note": "equivalent: when this update runs, the transaction's working state still has that table as it was at the start"
 },
 "d1044": {
  "note": "equivalent: when this update runs, the transaction's working state still has that table as it was at the start"
 },
 "d5": {
  "note": "equivalent: priorities only break ties between equally long matches, and the only rule a comma can tie with has priority 1"
 },
 "d8": {
  "note": "equivalent: priorities only break ties between equally long matches, and no other rule matches a bracket"
 },
 "e8": {
  "note": "equivalent: with this number of database slots an earlier open in the same call fails already, so this check decides nothing on any path"
 },
 "e143": {
  "note": "equivalent: with this number of database slots an earlier open in the same call fails already, so this check decides nothing on any path"
 },
 "e125": {
  "note": "equivalent: with this number of database slots an earlier open in the same call fails already, so this check decides nothing on any path"
 },
 "e100": {
  "note": "equivalent: with this number of database slots an earlier open in the same call fails already, so this check decides nothing on any path"
 },
 "e101": {
  "note": "equivalent: with this number of database slots an earlier open in the same call fails already, so this check decides nothing on any path"
 },
 "e21": {
  "note": "equivalent: with this number of database slots an earlier open in the same call fails already, so this check decides nothing on any path"
 },
 "e178": {
  "note": "equivalent: with this number of database slots an earlier open in the same call fails already, so this check decides nothing on any path"
 },
 "e81": {
  "note": "equivalent: with this number of database slots an earlier open in the same call fails already, so this check decides nothing on any path"
 },
 "e152": {
  "note": "equivalent: with this number of database slots an earlier open in the same call fails already, so this check decides nothing on any path"
 },
 "e150": {
  "note": "equivalent: with this number of database slots an earlier open in the same call fails already, so this check decides nothing on any path"
 },
 "e77": {
  "note": "equivalent: with this number of database slots an earlier open in the same call fails already, so this check decides nothing on any path"
 },
 "e92": {
  "note": "equivalent: with this number of database slots an earlier open in the same call fails already, so this check decides nothing on any path"
 },
 "e42": {
  "note": "equivalent: with this number of database slots an earlier open in the same call fails already, so this check decides nothing on any path"
 },
 "e53": {
  "note": "equivalent: with this number of database slots an earlier open in the same call fails already, so this check decides nothing on any path"
 },
 "e113": {
  "note": "equivalent: with this number of database slots an earlier open in the same call fails already, so this check decides nothing on any path"
 },
 "e124": {
  "note": "equivalent: with this number of database slots an earlier open in the same call fails already, so this check decides nothing on any path"
 },
 "d119": {
  "note": "equivalent: a string literal never ties with another form (C02_ties)"
 },
 "d192": {
  "note": "equivalent: forms of this lexer never tie (C66_no_ties)"
 },
 "suite12": {
  "note": "equivalent: the number printed is never negative"
 },
 "e190": {
  "note": "equivalent: with this number of database slots an earlier open in the same call fails already, so this check decides nothing on any path"
 },
 "d740": {
  "note": "equivalent: the only caller passes the empty bindings as `result`"
 },
 "d555": {
  "note": "equivalent: no other pattern of this lexer can match a closing brace, so its priority is never compared"
 }
}