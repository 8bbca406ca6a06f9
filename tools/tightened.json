{"scopeSeg": ["C11_scope_prefixes_name (new)"], "fillLoop conc": ["C71_how_many (new)", "C71_best_first (new)"], "Pool.testStop sticky": ["C42_stays_stopped (new)"], "projected sign": ["C62_projection (new)"], "make init std/mean": ["C74_starts_at_info (new)"], "samplePopulation ofs": ["C74_offspring (new)"], "cmaSetWeights guard": ["C50_rejected (new)"], "soft swapped": ["C57_soft (new)", "C57_wrong_size (new)"], "OptOverride.apply": ["C11_scoped_options (new)"], "minElem": ["C67_find_best_empty (new)"], "verifyResults negative": ["C93_message", "C93_history"], "tryGet": ["C95_growing (new)"], "Pool.collect announce": ["C40_announced_values (new)"], "makeObjectiveInfoVec throws": ["C19_make_vec"], "staticBackend add": ["C96_like_objective_info (new)"], "valueOf": ["C114_runs", "C114_cma", "C114_cma_local"]}