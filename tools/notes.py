NOTES = {
 'C08': ('proved', 'The exception is a defect of the code; C08_* prove the exact behaviour, including the exception.'),
 'C09': ('proved', 'Exact arithmetic (any ordered field).  C09_violated_in_binary64: rounding can make the computed variance negative.'),
 'C12': ('proved', 'Proved under the stated restriction on repeated values; C12_violated and C12_violated_no_reduction show that the restriction is needed.'),
 'C13': ('proved', 'Proved under the stated restriction on repeated values; C13_violated shows that the restriction is needed.'),
 'C15': ('proved', 'Exact arithmetic; C15_violated_in_binary64 is a kernel-evaluated counterexample for IEEE binary64.'),
 'C16': ('proved', 'For every arithmetic with the IEEE propagation rules (LawfulSpecial); instances: exact arithmetic and binary64.'),
 'C54': ('proved', 'Multi-class: proved.  AMG: C54_amg_violated proves that the property fails there.'),
 'C57': ('proved', 'Exact arithmetic.  C57_inequality_violated and C57_violated_in_binary64 show the limits stated in the property.'),
}
