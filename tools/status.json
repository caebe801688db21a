{
 "C06": {"status": "partial", "note": "Full claim violated (decoder reads past the declared length, witness C06_record_isolated_violated); records that contain a whole frame are isolated."},
 "C07": {"status": "partial", "note": "Acceptance for equal cookies is unconditional; rejection assumes an ideal (injective) MAC; name and address are only authenticated as a concatenation (witness C07_binding_violated)."},
 "C16": {"status": "partial", "note": "Violated by hash_ring.rs:204-208: overrides survive clear (witness); nodes are cleared."}
}
