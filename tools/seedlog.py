"""Write seeded/LOG.jsonl from the results of finished attempts: seedlog.py OUT..."""
import json, sys
# Claims that were listed as targets but stay true of the edited program.
STILL_TRUE = {"rt1": ["C01"], "ps9": ["C09"], "pd2": ["C63"], "pd2b": ["C63"], "ct16": ["C115"]}
NOTES = {"ct16": "No claim is broken: the branch that is left out does the same as the one behind it; only proofs by its form are rejected.",
         "w8": "First listed under C111, which assumes that read_body reads just the body; C96, which does not, fails.",
         "ps9": "No claim is broken: the number of arguments is checked before, so that the edited branch is not "
         "reached. C09 was extended to tuples of arbitrary values on this occasion and holds of the edited program too.",
         "sv15": "Survived: no theorem about C44 failed. C44_listener_failure_ends was added; its proof fails in the next run of the same edit.",
         "qs10": "First listed under C13, which says nothing about nested structs; no property did. C69 was added; C69_query fails in the next "
         "run of the same edit.",
         "pd2": "C63 is not broken: it speaks of paths that match the entry point, on which the edit has no effect "
         "(routing has compared the constants before). C63 was extended to all types of paths on this occasion.",
         "pd2b": "Second run, after C63 was extended: still true of the edited program. The proofs that fail do so "
         "through a lemma that unfolds the edited function.",
         "qs5": "Survived for C18. C18_none_lost was added; its proof fails in the next run of the same edit.",
         "qs5b": "Second run of the edit, with C18_none_lost.",
         "pd5": "First listed under C11, which says that decoding never panics, and this stays true. C63 was extended later "
         "and fails in the next run of the same edit.",
         "pd10": "Survived. C63_path_read and C63_path_read_exactly were added; they fail in the next run of the same edit.",
         "ur2": "Survived: C13 read queries with the model's own decoder. C94_sent_target states the rules independently; "
         "it fails in the next run of the same edit.",
         "ur5": "Survived for C08, which compared segments before they are joined. C08_on_the_wire was added; it fails in the "
         "next run of the same edit.",
         "tx2": "Survived. C60_integer_range was added, which states the ranges as powers of two.",
         "h3": "Survived: C88 used the model's own isToken. It now states the characters of names independently; see the "
         "next run of the same edit.",
         "h4": "Not caught by C88, which used the model's own isField. It now states the characters of values independently; "
         "see the next run of the same edit.",
         "h17": "Survived: C93 does not say that a call ends when it gets what is no response. C107_no_response does.",
         "f20": "Survived: C98 does not say which of several shortest texts is printed. C103_text was extended by this, and fails in the "
         "next run of the same edit.",
         "v22": "Not caught by C110, which spoke of the decision table and not of the connection. C110_server was added; "
         "it uses C02, which fails.",
         "y7": "Not caught by C112, which spoke of the target only. C112_called was added; it uses C38, which fails.",
         "y8": "As for the edit before.", "y12": "As for the edit of getChild.",
         "sv15b": "Second run of the edit, with the added theorem.", "qs10b": "Second run of the edit, with C69."}
# Claims that the edit breaks instead of the ones first listed.
RELABEL = {"qs10": ["C69"], "pd5": ["C07", "C10"], "w8": ["C96"]}
TIGHTENED = {"ps9": ["C09_accepted_iff"], "sv15": ["C44_listener_failure_ends"], "qs10": ["C69_query"],
             "pd2": ["C63_path_read"], "qs5": ["C18_none_lost"], "pd10": ["C63_path_read", "C63_path_read_exactly"],
             "ur2": ["C94_sent_target"], "ur5": ["C08_on_the_wire"], "tx2": ["C60_integer_range"],
             "h3": ["C88_read", "C88_only"], "h4": ["C88_read", "C88_only"], "h17": ["C107_no_response"], "f20": ["C103_text"],
             "v22": ["C110_server"], "y7": ["C112_called"], "y8": ["C112_called"], "y12": ["C112_called"]}
# Edits made by rule (files named auto.out) that no proof rejects.
SURVIVORS = {
    "Server:254: true→ false": ("Survived: no theorem said that a handler is called before all of the body has arrived. "
                               "C96_early was added, which says so.", ["C96_early"]),
    "PathDe:68:arm takes next": ("No claim is broken: the edited arm is not reached, as the number of segments is checked before.", []),
    "Server:367:update dropped": ("Survived: a server whose address cannot be bound went on waiting in the edited program. "
                                  "C138_life was added, which describes the whole life of a server.", ["C138_life"])}

def by_rule(r):
    rejected = {}
    for module, _, name, _ in r["errs"]:
        if name not in rejected.setdefault(module, []):
            rejected[module].append(name)
    note, tightened = SURVIVORS.get(r["key"], (None, []))
    return {"definition": r["defn"], "edit": f"{r['before'].strip()} → {r['after'].strip()}",
            "claim_broken": "not listed: the edit was made by rule", "proofs_rejected": rejected,
            "theorems_failed": sorted({n for ns in rejected.values() for n in ns}),
            "survived": r["verdict"] != "killed", "theorems_tightened": tightened, **({"note": note} if note else {})}

with open("/verif/seeded/LOG.jsonl", "w") as f:
    for out in sys.argv[1:]:
        for line in open(out):
            r = json.loads(line)
            if out.endswith("auto.out"):
                if r["verdict"] != "invalid":  # the edited program does not type-check
                    f.write(json.dumps(by_rule(r), ensure_ascii=False) + "\n")
                continue
            claims = [c for c in RELABEL.get(r["key"], [c.strip() for c in r["claim"].split(",")]) if c not in STILL_TRUE.get(r["key"], [])]
            hit = [c for c in claims if any(t.startswith(c + "_") for t in r["failed"])]
            f.write(json.dumps({
                "definition": r["defn"], "edit": r["edit"], "claim_broken": claims,
                "proofs_rejected": r["direct"], "theorems_failed": r["failed"],
                "claims_not_caught": [c for c in claims if c not in hit],
                "theorems_tightened": TIGHTENED.get(r["key"], []),
                **({"note": NOTES[r["key"]]} if r["key"] in NOTES else {})}) + "\n")
