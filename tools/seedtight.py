"""Notes on single attempts, used by seedlog.py."""

# (definition, edit) -> theorems tightened because of the attempt
TIGHTENED = {
    ("forRange", "all counting loops stop one early"): ["C39_raw_scores", "C39_amg_raw_scores"],
    ("multiplySlices", "adds (no caller in the program)"): ["C71_elementwise"],
}

# (definition, edit) -> remark
REMARK = {
    ("Question.solve", ">= becomes >"):
        "The sample checks filed under C33, C39 and C70 walk the trees with >= themselves; the claims compare training with prediction or "
        "presuppose a trained ensemble, and both sides change alike, so these claims stay true.",
    ("getWeightedAmgLeafValues", "learning rate applied before the division"):
        "Equal in exact arithmetic, so no sample check sees it; binary64 roundings differ, and the equations between model functions fail.",
    ("multiplySlices", "adds (no caller in the program)"):
        "The function had no theorem when this was tried; C71_elementwise was added and fails for this edit.",
    ("readCsvData", "first record dropped"):
        "The sample check filed under C04 also exercises the file reader, which belongs to C50; the theorem of C50 fails.",
    ("updateLeftTracker", "left sum decreases"):
        "The sum on the left enters only through its square, so no result changes; proofs fail because the tracker is no longer the sum.",
    ("calculateLossVector", "length assertion dropped"):
        "Both vectors always have the same length, so no result changes; the equations between model functions fail.",
    ("determineInitialGuess", "guess is the first label"):
        "The sample check filed under C74 assumes that a tiny learning rate stops training at once, which needs a non-zero guess; the claim is "
        "conditional on a standstill and stays true. Its concrete example fails.",
    ("regressionPredict", "trees summed in reverse order"):
        "Equal in exact arithmetic, which the sample checks use; the theorems for every arithmetic fail.",
    ("LeafOutputType.calculate", "leaf outputs exchanged"): "The sample checks did not finish.",
    ("subtractSlices", "swapped operands"):
        "The sample check filed under C40 also trains an ensemble and presupposes its residuals, which belong to C33; the theorems of C33 fail.",
    ("findLeafNodeForData", "panics at the leaf"):
        "C30, C40, C58, C59, C70 and C85 compare outcomes of lookups or speak about successful ones; that lookups succeed is C21 and C42, "
        "of which the theorems fail.",
    ("buildGradBoostTreeMT", "no stop at gain 0"):
        "C29, C51, C69 and C70 speak about trained ensembles; that training succeeds is C17 and C42, of which the theorems fail.",
}
